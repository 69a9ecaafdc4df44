import Verif.Props.FloatCERLPCap
import Verif.Props.FloatSmoothTrees
import Verif.Props.Config
import Verif.Model.FloatTreeEq

/-! # CERLPBoost on decision trees in `f64` (C127) -/

namespace Miniboosts.Props

open Miniboosts Spec F64 CERLPBoostF

theorem feq_eq {a b : F64} (h : F64.feq a b = true) : a = b := by
  have h' : F64.Le a b ∧ F64.Le b a := by simpa [F64.feq] using h
  obtain ⟨h1, h2⟩ := h'
  cases a with
  | nan => exact absurd h1 id
  | inf s => cases b with
    | nan => cases s <;> exact absurd h2 id
    | inf s' => cases s <;> cases s' <;> simp [Le] at h1 h2 ⊢
    | fin y => cases s <;> simp [Le] at h1 h2
  | fin x => cases b with
    | nan => exact absurd h1 id
    | inf s => cases s <;> simp [Le] at h1 h2
    | fin y => exact congrArg _ (le_antisymm h1 h2)

/-- Equal trees are the same tree: `==` on `f64` is false for a NaN, and the model has only one zero. -/
theorem tree_eq_of_beq {f g : TreeNode F64} (h : (f == g) = true) : f = g := by
  induction f generalizing g with
  | leaf c =>
    cases g with
    | leaf c' => exact congrArg _ (feq_eq h)
    | branch => cases h
  | branch r l l' ih ih' =>
    cases g with
    | leaf => cases h
    | branch r' m m' =>
      have h' : ((r.feature == r'.feature && F64.feq r.threshold r'.threshold) && (TreeNode.feq l m && TreeNode.feq l' m')) = true := h
      simp only [Bool.and_eq_true, beq_iff_eq] at h'
      obtain ⟨⟨h1, h2⟩, h3, h4⟩ := h'
      obtain ⟨a, b⟩ := r
      obtain ⟨a', b'⟩ := r'
      have h2' := feq_eq h2
      simp only at h1 h2'
      subst h1 h2'
      rw [ih h3, ih' h4]

/-- Weights of sum about one are weights for trees. -/
theorem treeWeights_of_sum {n : ℕ} {w : List ℝ} (hl : w.length = n) (h0 : ∀ x ∈ w, 0 ≤ x) (hs : |w.sum - 1| ≤ 11 / 10 ^ 6) (hd : ∀ x ∈ w, Double x) : TreeWeights n w := by
  have hs := abs_le.mp hs
  norm_num at hs
  refine ⟨hl, hd, h0, ?_, by linarith⟩
  by_contra hne
  push Not at hne
  have : w.sum ≤ (w.map fun _ => (0 : ℝ)).sum := by
    conv_lhs => rw [← List.map_id w]
    exact List.sum_le_sum fun x hx => hne x hx
  simp only [List.map_const', List.sum_replicate, smul_zero] at this
  linarith

theorem tree_edge_of_sum {L : Libm} {b : DecisionTreeBuilder ℝ} (hb : FloatTreeData b) (hcr : b.criterion = .edge) (hd : 1 ≤ b.maxDepth) {t : FTree.Tree}
    (ht : FTree.build (10 ^ 5) b = some (.ok t)) {wl : WeakLearner F64 (TreeNode F64)} (hwl : FTree.IsLearner L t b.sample wl) {θ : ℝ} (hθ0 : 0 < θ) (hθ1 : θ ≤ 1)
    (hv : TestMargin b.sample t.bins θ) {w : List ℝ} (hl : w.length = b.sample.nSample) (h0 : ∀ x ∈ w, 0 ≤ x) (hsum : |w.sum - 1| ≤ 11 / 10 ^ 6) (hdb : ∀ x ∈ w, Double x) (it : ℕ) :
    θ ^ 2 - 4 / 10 ^ 5 ≤ exactEdge b.sample.rows (w.map fin) (wl it (w.map fin)) := by
  have hw := treeWeights_of_sum hl h0 hsum hdb
  obtain ⟨hp, -⟩ := floatTree_conf_of hb ht hwl hw it
  have hsum' := abs_le.mp hsum
  norm_num at hsum'
  obtain ⟨f, hf, bins, hbins, β, hβ, x, hx, hge⟩ := test_of_margin_pos hθ0 hv hl h0 (by linarith)
  have hE := tree_f64_edge L b hb hcr hd t ht w hw (by linarith) _ hp f hf bins hbins β hβ x hx
  generalize exactEdge b.sample.rows (w.map fin) (wl it (w.map fin)) = E at *
  generalize testEdge b.sample w f x = T at *
  generalize w.sum = W at *
  have h1 : (θ * W) ^ 2 ≤ T ^ 2 := by
    have : 0 ≤ θ * W := mul_nonneg hθ0.le (by linarith)
    gcongr
  have h2 : (θ ^ 2 - 4 / 10 ^ 5) * W ≤ E * W := by
    have hθ2 : θ ^ 2 ≤ 1 := by nlinarith
    have h3 : θ ^ 2 * W * (1 - W) ≤ 12 / 10 ^ 6 := by
      have a : θ ^ 2 * W ≤ 1 * (1 + 12 / 10 ^ 6) := mul_le_mul hθ2 (by norm_num; linarith) (by linarith) (by norm_num)
      have a0 : 0 ≤ θ ^ 2 * W := mul_nonneg (sq_nonneg _) (by linarith)
      rcases le_total (1 - W) 0 with h | h
      · exact le_trans (mul_nonpos_of_nonneg_of_nonpos a0 h) (by norm_num)
      · refine (mul_le_mul a (show 1 - W ≤ 11 / 10 ^ 6 by norm_num; linarith) h (by norm_num)).trans (by norm_num)
    norm_num at h3 hE ⊢
    nlinarith
  exact le_of_mul_le_mul_right h2 (by linarith)

theorem floatRows_good {b : DecisionTreeBuilder ℝ} (hb : FloatTreeData b) : GoodSample b.sample.rows :=
  ⟨two_le_length (floatRows_binary hb), by rw [floatRows_length]; exact hb.rows_le, floatRows_binary hb, floatRows_labels hb.sample hb.labels⟩

theorem floatTree_good {L : Libm} {b : DecisionTreeBuilder ℝ} (hb : FloatTreeData b) {t : FTree.Tree} (ht : FTree.build (10 ^ 5) b = some (.ok t))
    {wl : WeakLearner F64 (TreeNode F64)} (hwl : FTree.IsLearner L t b.sample wl) : GoodLearner b.sample.rows wl := by
  constructor
  · rintro it d ⟨w, rfl, h2, h3, h4, h5⟩
    rw [floatRows_length] at h2
    exact (floatTree_conf_of hb ht hwl (treeWeights_of_sum h2 (fun x hx => (h3 x hx).1) (h4.trans (by norm_num)) h5) it).2
  · intro f g h e _
    rw [tree_eq_of_beq h]

/-- C127: CERLPBoost on trees with any criterion but Gini, both in `f64`: every run ends, every weight vector is almost a distribution and the hypothesis is a tree that training on
it may produce, so no call of the learner panics; it returns a vote, or panics because the first tree has an edge of at most half of the tolerance. -/
theorem cerlp_f64_trees (L : Libm) (hexp : ∀ x ≤ 0, L.expA x ≤ 1) (other) (b : DecisionTreeBuilder ℝ) (hb : FloatTreeData b) (t : FTree.Tree)
    (ht : FTree.build (10 ^ 5) b = some (.ok t)) (wl : WeakLearner F64 (TreeNode F64)) (hwl : FTree.IsLearner L t b.sample wl) {s : CERLPBoostF (TreeNode F64)} {h : ℝ} (hp : GoodParams s h)
    (fuel : ℕ) (hf : 25 * 10 ^ 6 < fuel) :
    (∃ f qs, (booster L other b.sample.rows).run wl fuel s = some (.ok (f, qs)) ∧
        (∀ d ∈ qs, NearDistribution b.sample.nSample d ∧ ∀ it, FTree.Produce L t b.sample d (some (wl it d)))) ∨
      ((booster L other b.sample.rows).run wl fuel s = some (.error .assertion) ∧ ∃ d, NearDistribution b.sample.nSample d ∧
        FTree.Produce L t b.sample d (some (wl 1 d)) ∧ exactEdge b.sample.rows d (wl 1 d) ≤ h + 1 / 10 ^ 8) := by
  have hprod : ∀ d, NearDistribution b.sample.nSample d → ∀ it, FTree.Produce L t b.sample d (some (wl it d)) := by
    rintro d ⟨w, rfl, h2, h3, h4, h5⟩ it
    exact (floatTree_conf_of hb ht hwl (treeWeights_of_sum h2 (fun x hx => (h3 x hx).1) (h4.trans (by norm_num)) h5) it).1
  rcases cerlp_f64_outcome L hexp other (floatRows_good hb) hp (floatTree_good hb ht hwl) fuel hf with ⟨f, qs, h1, h2, -⟩ | ⟨h1, d, h2, -, h4⟩
  · rw [floatRows_length] at h2
    exact .inl ⟨f, qs, h1, fun d hd => ⟨h2 d hd, hprod d (h2 d hd)⟩⟩
  · rw [floatRows_length] at h2
    exact .inr ⟨h1, d, h2, hprod d h2 1, h4⟩

/-- C127: CERLPBoost on trees with the criterion `edge`, both in `f64`.  If a vote over the tests `column < boundary of a bin` has margin `θ` on every row and `θ²` exceeds half of the
tolerance (and `10⁻⁴`), every run returns; and if it returns before the limit of the iterations, every row has a computed margin of at least `θ² - tolerance - 2·10⁻⁴`. -/
theorem cerlp_f64_edge_trees (L : Libm) (hexp : ∀ x ≤ 0, L.expA x ≤ 1) (other) (b : DecisionTreeBuilder ℝ) (hb : FloatTreeData b) (hcr : b.criterion = .edge) (hd : 1 ≤ b.maxDepth) (t : FTree.Tree)
    (ht : FTree.build (10 ^ 5) b = some (.ok t)) (wl : WeakLearner F64 (TreeNode F64)) (hwl : FTree.IsLearner L t b.sample wl) {s : CERLPBoostF (TreeNode F64)} {h : ℝ} (hp : GoodParams s h)
    {θ : ℝ} (hθ0 : 0 < θ) (hθ1 : θ ≤ 1) (hv : TestMargin b.sample t.bins θ) (hθ : h + 1 / 10 ^ 4 < θ ^ 2) (fuel : ℕ) (hf : 25 * 10 ^ 6 < fuel) :
    ∃ f qs, (booster L other b.sample.rows).run wl fuel s = some (.ok (f, qs)) ∧
      (∀ d ∈ qs, NearDistribution b.sample.nSample d ∧ ∀ it, FTree.Produce L t b.sample d (some (wl it d))) ∧
      (qs.length : ℝ) ≤ 8 * Real.log b.sample.nSample / h ^ 2 + 1001 / 1000 ∧
      ((qs.length : ℝ) < 8 * Real.log b.sample.nSample / h ^ 2 - 1 / 1000 →
        (∀ e ∈ b.sample.rows, ∃ F : ℝ, F64.weightedConf f e.1 = fin F ∧ θ ^ 2 - 2 * h - 2 / 10 ^ 4 ≤ e.2 * F) ∧ (2 * h + 2 / 10 ^ 4 < θ ^ 2 → floatMistakes b.sample.rows f = 0)) := by
  have hedge : ∀ (it : ℕ) d, NearDistribution b.sample.rows.length d → θ ^ 2 - 4 / 10 ^ 5 ≤ exactEdge b.sample.rows d (wl it d) := by
    rintro it d ⟨w, rfl, h2, h3, h4, h5⟩
    rw [floatRows_length] at h2
    exact tree_edge_of_sum hb hcr hd ht hwl hθ0 hθ1 hv h2 (fun x hx => (h3 x hx).1) (h4.trans (by norm_num)) h5 it
  have hS := floatRows_good hb
  have hg := floatTree_good hb ht hwl
  rcases cerlp_f64_outcome L hexp other hS hp hg fuel hf with ⟨f, qs, h1, h2, h3, -⟩ | ⟨-, d, h2, -, h4⟩
  · have hprod : ∀ d, NearDistribution b.sample.nSample d → ∀ it, FTree.Produce L t b.sample d (some (wl it d)) := by
      rintro d ⟨w, rfl, h2, h3, h4, h5⟩ it
      exact (floatTree_conf_of hb ht hwl (treeWeights_of_sum h2 (fun x hx => (h3 x hx).1) (h4.trans (by norm_num)) h5) it).1
    have hm := fun hs => cerlp_f64_margin L hexp other hS hp hg hedge h1 hs
    have hz := fun hρ hs => cerlp_f64_no_mistake L hexp other hS hp hg (ρ := θ ^ 2 - 4 / 10 ^ 5) hρ hedge h1 hs
    rw [floatRows_length] at h2 h3 hm hz
    refine ⟨f, qs, h1, fun d hd => ⟨h2 d hd, hprod d (h2 d hd)⟩, h3, fun hs => ⟨?_, fun hρ => hz (by norm_num at hρ ⊢; linarith) hs⟩⟩
    intro e he
    obtain ⟨F, F1, F2⟩ := hm hs e he
    refine ⟨F, F1, ?_⟩
    norm_num at F2 ⊢
    linarith
  · have := hedge 1 d h2
    exfalso
    norm_num at this hθ h4
    linarith

/-- C127 with a cap: whenever a run of CERLPBoost on trees with the criterion `edge` returns before the limit of the iterations, and a vote over the tests has margin `θ` with
`θ² > tolerance + 2·10⁻⁴`, then fewer than `ν` rows are classified wrongly; no call of the learner panics. -/
theorem cerlp_f64_capped_trees (L : Libm) (other) (b : DecisionTreeBuilder ℝ) (hb : FloatTreeData b) (hcr : b.criterion = .edge) (hd : 1 ≤ b.maxDepth) (t : FTree.Tree)
    (ht : FTree.build (10 ^ 5) b = some (.ok t)) (wl : WeakLearner F64 (TreeNode F64)) (hwl : FTree.IsLearner L t b.sample wl) {s : CERLPBoostF (TreeNode F64)} {h ν : ℝ}
    (hp : CappedParams b.sample.rows s h ν) {θ : ℝ} (hθ0 : 0 < θ) (hθ1 : θ ≤ 1) (hv : TestMargin b.sample t.bins θ) (hθ : 2 * h + 2 / 10 ^ 4 < θ ^ 2) {fuel : ℕ}
    {f : WeightedMajority F64 (TreeNode F64)} {qs : List (List F64)} (hrun : (booster L other b.sample.rows).run wl fuel s = some (.ok (f, qs))) :
    (∀ d ∈ qs, NearCapped ν b.sample.nSample d ∧ ∀ it, FTree.Produce L t b.sample d (some (wl it d))) ∧
      ((qs.length : ℝ) < 8 * Real.log (b.sample.nSample / ν) / h ^ 2 - 1 / 1000 → (floatMistakes b.sample.rows f : ℝ) < ν) := by
  have hS := floatRows_good hb
  have hboth : ∀ d, NearCapped ν b.sample.rows.length d → ∀ it, FTree.Produce L t b.sample d (some (wl it d)) ∧ ∀ e ∈ b.sample.rows, ∃ c : ℝ, conf (wl it d) e.1 = fin c ∧ |c| ≤ 1 := by
    rintro d ⟨w, rfl, h2, h3, h4, h5⟩ it
    rw [floatRows_length] at h2
    exact floatTree_conf_of hb ht hwl (treeWeights_of_sum h2 (fun x hx => (h3 x hx).1) h4 h5) it
  have hedge : ∀ (it : ℕ) d, NearCapped ν b.sample.rows.length d → θ ^ 2 - 4 / 10 ^ 5 ≤ exactEdge b.sample.rows d (wl it d) := by
    rintro it d ⟨w, rfl, h2, h3, h4, h5⟩
    rw [floatRows_length] at h2
    exact tree_edge_of_sum hb hcr hd ht hwl hθ0 hθ1 hv h2 (fun x hx => (h3 x hx).1) h4 h5 it
  obtain ⟨q1, -, -⟩ := cerlp_f64_capped L other hS hp (fun it d hd => (hboth d hd it).2) hrun
  refine ⟨fun d hd => ⟨by have := q1 d hd; rwa [floatRows_length] at this, fun it => (hboth d (q1 d hd) it).1⟩, fun hs => ?_⟩
  refine cerlp_f64_few_mistakes L other hS hp (fun it d hd => (hboth d hd it).2) (ρ := θ ^ 2 - 4 / 10 ^ 5) (by norm_num at hθ ⊢; linarith) hedge hrun ?_
  rw [floatRows_length]
  exact hs

/-- The hypotheses are met: on the sample of C94, trees with one test, the default parameters. -/
example (other) : ∃ wl : WeakLearner F64 (TreeNode F64), FTree.IsLearner exLibm ⟨[("x", giniBins)], .edge, 1⟩ giniSample wl ∧
    ∃ f qs, (booster exLibm other giniSample.rows).run wl (10 ^ 8) (CERLPBoostF.init exLibm giniSample.rows) = some (.ok (f, qs)) := by
  obtain ⟨wl, hwl⟩ := exists_floatTreeLearner exLibm ⟨[("x", giniBins)], .edge, 1⟩ giniSample
  obtain ⟨hp, h1⟩ := cerlp_init_good (H := TreeNode F64) exLibm giniSample.rows
  obtain ⟨f, qs, h2, -⟩ := cerlp_f64_edge_trees exLibm (fun x hx => Real.exp_le_one_iff.mpr hx) other stumpBuilder stumpBuilder_data rfl le_rfl _ stumpBuild wl hwl hp
    (θ := 1 / 3) (by norm_num) (by norm_num) giniMargin (by norm_num at h1 ⊢; linarith) (10 ^ 8) (by norm_num)
  exact ⟨wl, hwl, f, qs, h2⟩

/-- The hypotheses of the theorem with a cap are met by the same run, with `ν = 1`: then the vote makes no mistake if the run stops before the limit. -/
example (other) : ∃ (wl : WeakLearner F64 (TreeNode F64)) (f : WeightedMajority F64 (TreeNode F64)) (qs : List (List F64)),
    (booster exLibm other giniSample.rows).run wl (10 ^ 8) (CERLPBoostF.init exLibm giniSample.rows) = some (.ok (f, qs)) ∧
      (∀ d ∈ qs, NearCapped 1 3 d) ∧ ((qs.length : ℝ) < 8 * Real.log (3 / 1) / F64.round (5 / 1000) ^ 2 - 1 / 1000 → (floatMistakes giniSample.rows f : ℝ) < 1) := by
  obtain ⟨wl, hwl⟩ := exists_floatTreeLearner exLibm ⟨[("x", giniBins)], .edge, 1⟩ giniSample
  obtain ⟨hp, h1⟩ := cerlp_init_good (H := TreeNode F64) exLibm giniSample.rows
  obtain ⟨f, qs, h2, -⟩ := cerlp_f64_edge_trees exLibm (fun x hx => Real.exp_le_one_iff.mpr hx) other stumpBuilder stumpBuilder_data rfl le_rfl _ stumpBuild wl hwl hp
    (θ := 1 / 3) (by norm_num) (by norm_num) giniMargin (by norm_num at h1 ⊢; linarith) (10 ^ 8) (by norm_num)
  have h3 : giniSample.rows.length = 3 := by rw [floatRows_length]; rfl
  have hn : giniSample.nSample = 3 := rfl
  obtain ⟨h4, h5⟩ := cerlp_f64_capped_trees exLibm other stumpBuilder stumpBuilder_data rfl le_rfl _ stumpBuild wl hwl (s := CERLPBoostF.init exLibm giniSample.rows) (ν := 1)
    ⟨hp.tol, hp.lo, hp.hi, hp.nu, le_rfl, by change (1 : ℝ) ≤ 99 / 100 * (giniSample.rows.length : ℝ); rw [h3]; norm_num, hp.steps⟩
    (θ := 1 / 3) (by norm_num) (by norm_num) giniMargin (by norm_num at h1 ⊢; linarith) h2
  refine ⟨wl, f, qs, h2, fun d hd => (h4 d hd).1, fun h => h5 ?_⟩
  change (qs.length : ℝ) < 8 * Real.log ((3 : ℕ) / 1) / F64.round (5 / 1000) ^ 2 - 1 / 1000
  push_cast
  exact h

end Miniboosts.Props
