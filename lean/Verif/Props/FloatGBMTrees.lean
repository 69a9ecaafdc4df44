import Verif.Props.FloatRegTree
import Verif.Model.FloatGBM

/-! # C121/C123: regression trees as the hypotheses of GBM in `f64` -/

namespace Miniboosts.Props

open Miniboosts Spec F64

/-- What GBM sees of a regression tree: whatever `f64` predictions `p` of moderate size GBM holds, the tree that the learner returns for them (squared loss) answers on every row with the regularised
mean of the residuals of the rows in its leaf, up to `10⁻¹⁰` of the mean of their absolute values; no call of the learner panics. -/
theorem gbm_f64_tree_answers (b : FReg.Builder) (hs : SampleOk b.sample) (hf : b.sample.features ≠ []) (hn : 0 < b.sample.nSample)
    (hn' : b.sample.nSample ≤ 10 ^ 5) (hcol : ModerateBins b.sample b.nBins) (hl : b.loss = some .L2) {lam : ℝ} (hlam : b.lambdaL2 = fin lam) (hlam0 : 0 ≤ lam)
    (hlam1 : ModerateValues [lam]) (hy : ModerateValues b.sample.target) :
    ∃ t : FReg.Tree, (∀ fuel, 10 ^ 5 ≤ fuel → b.build fuel = some (.ok t)) ∧ ∀ wl, FReg.IsLearner t b.sample wl → ∀ (it : ℕ) (p : List ℝ), p.length = b.sample.nSample → ModerateValues p →
      FReg.Produce t b.sample (p.map fin) (some (wl it (p.map fin))) ∧
      ∀ row < b.sample.nSample, ∃ v : ℝ, (Regressor.pred (wl it (p.map fin)) (b.sample, row) : F64) = fin v ∧
        |v - ((leafMates b.sample (wl it (p.map fin)) row).map (residualAt b.sample p)).sum / ((leafMates b.sample (wl it (p.map fin)) row).length + lam)| ≤
          1 / 10 ^ 10 * (((leafMates b.sample (wl it (p.map fin)) row).map fun i => |residualAt b.sample p i|).sum / ((leafMates b.sample (wl it (p.map fin)) row).length + lam)) + 1 / 10 ^ 60 := by
  have hzero : ModerateValues (List.replicate b.sample.nSample (0 : ℝ)) := by
    intro x hx
    rw [List.eq_of_mem_replicate hx]
    constructor
    · exact rep_zero
    · norm_num
  obtain ⟨t, t1, -, -⟩ := regression_tree_f64_leaf_values b hs hf hn hn' hcol hl hlam hlam0 hlam1 hy _ (List.length_replicate ..) hzero
  refine ⟨t, t1, fun wl hwl it p hp hpm => ?_⟩
  obtain ⟨t', t1', ⟨o, ho⟩, t3⟩ := regression_tree_f64_leaf_values b hs hf hn hn' hcol hl hlam hlam0 hlam1 hy p hp hpm
  have ht : t' = t := by
    have h1 := t1 (10 ^ 5) le_rfl
    rw [t1' (10 ^ 5) le_rfl] at h1
    simpa using h1
  subst ht
  obtain ⟨tree, rfl, -⟩ := t3 o ho
  have hprod := hwl it (p.map fin) ⟨tree, ho⟩
  obtain ⟨tree', e, h4⟩ := t3 _ hprod
  cases e
  refine ⟨hprod, fun row hrow => ?_⟩
  obtain ⟨v, v1, v2⟩ := h4 row hrow
  refine ⟨v, ?_, v2⟩
  change (FTree.confidence b.sample row _).getD nan = fin v
  rw [v1]
  rfl

/-- The hypotheses are met: three rows, the regulariser `1/2`, and the predictions GBM starts with. -/
example : ∃ t : FReg.Tree, ∀ wl, FReg.IsLearner t giniSample wl → ∀ row < 3, ∃ v : ℝ, (Regressor.pred (wl 1 ([0, 0, 0].map fin)) (giniSample, row) : F64) = fin v := by
  obtain ⟨t, -, h⟩ := gbm_f64_tree_answers (halfBuilder .L2) (oneColumn_ok rfl) (by simp [halfBuilder, FReg.Builder.setLambda, FReg.Builder.setLoss, FReg.Builder.new, giniSample, oneColumn]) (by decide)
    (by simp [halfBuilder, FReg.Builder.setLambda, FReg.Builder.setLoss, FReg.Builder.new, giniSample, oneColumn]) (halfBuilder_columns _) rfl (lam := 1 / 2) rfl (by norm_num) half_moderate halfBuilder_target
  refine ⟨t, fun wl hwl row hrow => ?_⟩
  obtain ⟨v, v1, -⟩ := (h wl hwl 1 [0, 0, 0] rfl zeros_moderate).2 row hrow
  exact ⟨v, v1⟩

end Miniboosts.Props
