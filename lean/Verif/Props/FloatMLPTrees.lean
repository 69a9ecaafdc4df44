import Verif.Props.FloatMLP
import Verif.Props.FloatCERLPTrees
import Verif.Props.FloatObjective
import Verif.Props.FileFloatBoost

/-! # C132: MLPBoost on decision trees in `f64`, and its objective -/

namespace Miniboosts.Props

open Miniboosts Spec F64 CERLPBoostF MLPBoostF

/-- C132: MLPBoost in `f64` on decision trees trained in `f64` with the criterion edge, whatever the LP solver answers: every question is almost a distribution capped at `1/ν`, no call of the
learner panics and every hypothesis is a tree that training may return; if a vote over the tests has margin `θ` on every row, `θ² > tolerance + 2.7·10⁻⁴ + h / (1000 ln(n/ν))`, and the run
returns before the limit of the iterations, fewer than `ν` rows are classified wrongly. -/
theorem mlp_f64_trees (L : Libm) {other : FWType → Nat → List F64 → List (TreeNode F64) → Nat → List F64 → Except Panic (List F64)} (hother : KeepsLength other) {lp : Lp (TreeNode F64)} (hlp : Sized lp)
    (b : DecisionTreeBuilder ℝ) (hb : FloatTreeData b) (hcr : b.criterion = .edge) (hd : 1 ≤ b.maxDepth) (t : FTree.Tree)
    (ht : FTree.build (10 ^ 5) b = some (.ok t)) (wl : WeakLearner F64 (TreeNode F64)) (hwl : FTree.IsLearner L t b.sample wl) {s : MLPBoostF (TreeNode F64)} {h ν : ℝ}
    (hp : MLPBoostF.GoodParams b.sample.rows s h ν) {θ : ℝ} (hθ0 : 0 < θ) (hθ1 : θ ≤ 1) (hv : TestMargin b.sample t.bins θ)
    (hθ : 2 * h + 27 / 10 ^ 5 + h / (1000 * Real.log (b.sample.nSample / ν)) < θ ^ 2) {fuel : ℕ}
    {f : WeightedMajority F64 (TreeNode F64)} {qs : List (List F64)} (hrun : (MLPBoostF.booster L other lp b.sample.rows).run wl fuel s = some (.ok (f, qs))) :
    (∀ d ∈ qs, NearCapped ν b.sample.nSample d ∧ ∀ it, FTree.Produce L t b.sample d (some (wl it d))) ∧
      ((qs.length : ℝ) < 8 * Real.log (b.sample.nSample / ν) / h ^ 2 - 1 / 1000 → (floatMistakes b.sample.rows f : ℝ) < ν) := by
  have hS := floatRows_good hb
  have hboth : ∀ d, NearCapped ν b.sample.rows.length d → ∀ it, FTree.Produce L t b.sample d (some (wl it d)) ∧ ∀ e ∈ b.sample.rows, ∃ c : ℝ, conf (wl it d) e.1 = fin c ∧ |c| ≤ 1 := by
    rintro d ⟨w, rfl, h2, h3, h4, h5⟩ it
    rw [floatRows_length] at h2
    exact floatTree_conf_of hb ht hwl (treeWeights_of_sum h2 (fun x hx => (h3 x hx).1) h4 h5) it
  have hedge : ∀ (it : ℕ) d, NearCapped ν b.sample.rows.length d → θ ^ 2 - 4 / 10 ^ 5 ≤ exactEdge b.sample.rows d (wl it d) := by
    rintro it d ⟨w, rfl, h2, h3, h4, h5⟩
    rw [floatRows_length] at h2
    exact tree_edge_of_sum hb hcr hd ht hwl hθ0 hθ1 hv h2 (fun x hx => (h3 x hx).1) h4 h5 it
  obtain ⟨q1, -, -⟩ := mlp_f64_capped L hother hlp hS hp (fun it d hd => (hboth d hd it).2) hrun
  refine ⟨fun d hd => ⟨by have := q1 d hd; rwa [floatRows_length] at this, fun it => (hboth d (q1 d hd) it).1⟩, fun hs => ?_⟩
  refine mlp_f64_few_mistakes L hother hlp hS hp (fun it d hd => (hboth d hd it).2) (ρ := θ ^ 2 - 4 / 10 ^ 5) (by rw [floatRows_length]; norm_num at hθ ⊢; linarith) hedge hrun ?_
  rw [floatRows_length]
  exact hs

/-- C132: from a file: it is read, the trees' bins are cut in `f64`, and MLPBoost in `f64` with its default parameters and trees trained in `f64` (criterion `edge`, any positive depth), if it returns
a vote before the limit of the iterations, predicts the label of every row of the file, whichever trees the calls of the learner return and whatever the LP solver answers; no call of the learner
panics. -/
theorem file_mlp_f64 (L : Libm) {other : FWType → Nat → List F64 → List (TreeNode F64) → Nat → List F64 → Except Panic (List F64)} (hother : KeepsLength other) {lp : Lp (TreeNode F64)} (hlp : Sized lp)
    {parseIx : List Char → Option ℕ} {parse : List Char → Option ℝ} {r : SampleReader} {ys : List ℝ} {θ : ℝ}
    (h : LearnableFile parseIx parse r ys θ) (hθ : 1 / 8 ≤ θ) (hθ1 : θ ≤ 1) (hn : ys.length ≤ 10 ^ 5) (hn2 : 2 ≤ ys.length) {depth : ℕ} (hd : 0 < depth) :
    ∃ s b t s₀, SampleReader.read parseIx parse r = .ok s ∧ s.nSample = ys.length ∧
      ((DecisionTreeBuilder.new s).setCriterion .edge).setMaxDepth depth = .ok b ∧ FTree.build (10 ^ 5) b = some (.ok t) ∧ MLPBoostF.init L s.rows = .ok s₀ ∧
      (∃ wl, FTree.IsLearner L t s wl) ∧ ∀ wl, FTree.IsLearner L t s wl → ∀ fuel f qs, (MLPBoostF.booster L other lp s.rows).run wl fuel s₀ = some (.ok (f, qs)) →
          (∀ q ∈ qs, ∀ it, FTree.Produce L t s q (some (wl it q))) ∧
          ((qs.length : ℝ) < 8 * Real.log ys.length / F64.round (5 / 1000) ^ 2 - 1 / 1000 → ∀ i < ys.length, (F64.predict f (s, i) : ℝ) = ys.getD i 0) := by
  obtain ⟨s, b, t, e1, e2, e3, e4, e5, rfl, e7, e8, e9, e10, e11⟩ := file_edge_trees L h hn hd
  have hlen : b.sample.rows.length = ys.length := by rw [floatRows_length, e2]
  refine ⟨_, b, t, _, e1, e2, e3, e4, if_neg (by rw [hlen]; omega), e5, fun wl hwl fuel f qs hrun => ?_⟩
  obtain ⟨hp, h1⟩ := cerlp_init_good (H := TreeNode F64) L b.sample.rows
  have hθ2 : 1 / 64 ≤ θ ^ 2 := by nlinarith
  have hlenR : (2 : ℝ) ≤ ys.length := by exact_mod_cast hn2
  have hlog : 1 / 2 ≤ Real.log ((b.sample.nSample : ℝ) / 1) := by
    rw [e2, div_one]
    have h2 := Real.log_le_log (by norm_num) hlenR
    have := Real.log_two_gt_d9
    linarith
  have hsmall : F64.round (5 / 1000) / (1000 * Real.log ((b.sample.nSample : ℝ) / 1)) ≤ 1 / 1000 := by
    rw [div_le_iff₀ (by linarith)]
    have := hp.hi
    linarith
  obtain ⟨k1, k2⟩ := mlp_f64_trees L hother hlp b e7 e8 e9 t e4 wl hwl (ν := 1)
    ⟨hp.tol, hp.lo, hp.hi, rfl, le_rfl, by rw [hlen]; linarith⟩ (θ := θ) (by linarith) hθ1 e10 (by norm_num at h1 hsmall hθ2 ⊢; linarith) hrun
  refine ⟨fun q hq => (k1 q hq).2, fun hs i hi => ?_⟩
  have k3 := k2 (by rw [e2, div_one]; exact hs)
  have k4 : floatMistakes b.sample.rows f = 0 := by
    have : floatMistakes b.sample.rows f < 1 := by exact_mod_cast k3
    omega
  rw [← e2] at hi
  rw [← e11 i hi]
  exact predicts_of_no_mistake k4 hi

variable {H X : Type*} [Classifier H X F64]

/-- C132: the soft-margin objective of the vote that MLPBoost returns: whenever a run in `f64` returns, evaluating the objective with the same `ν` returns a number; and if the run returned before
the limit of the iterations and the learner finds an edge of at least `ρ` for all weights that are almost a distribution capped at `1/ν`, it is at least
`ρ - tolerance - 2.4·10⁻⁴ - h / (1000 ln(n/ν))`, whatever the LP solver answers. -/
theorem mlp_f64_objective [BEq H] (L : Libm) {other : FWType → Nat → List F64 → List H → Nat → List F64 → Except Panic (List F64)} (hother : KeepsLength other) {lp : Lp H} (hlp : Sized lp)
    {S : Examples X ℝ} (hS : GoodSample S) {s : MLPBoostF H} {h ν : ℝ} (hp : MLPBoostF.GoodParams S s h ν) {wl : WeakLearner F64 H}
    (hwl : ∀ it d, NearCapped ν S.length d → ∀ e ∈ S, ∃ c : ℝ, conf (wl it d) e.1 = fin c ∧ |c| ≤ 1)
    {fuel : ℕ} {f : WeightedMajority F64 H} {qs : List (List F64)} (hrun : (MLPBoostF.booster L other lp S).run wl fuel s = some (.ok (f, qs))) {nFeature : ℕ} (hf : 0 < nFeature) :
    ∃ v : ℝ, softMarginEvalF (fin ν) nFeature S f = .ok (fin v) ∧
      ∀ ρ : ℝ, (∀ it d, NearCapped ν S.length d → ρ ≤ exactEdge S d (wl it d)) → (qs.length : ℝ) < 8 * Real.log (S.length / ν) / h ^ 2 - 1 / 1000 →
        ρ - 2 * h - 24 / 10 ^ 5 - h / (1000 * Real.log (S.length / ν)) ≤ v := by
  obtain ⟨-, -, -, hconf⟩ := mlp_f64_capped L hother hlp hS hp hwl hrun
  have hc : FiniteConf S f := by
    intro e he
    obtain ⟨F, F1, F2⟩ := hconf e he
    exact ⟨F, F1, F2.trans (by norm_num), vote_double F1⟩
  have hlen : (2 : ℝ) ≤ S.length := by exact_mod_cast hS.two
  obtain ⟨v, V, v1, v2, v3⟩ := softMargin_f64 (h := f) (by rintro rfl; have := hS.two; simp at this) hS.labels hS.few hf hp.one_le (by have := hp.le; linarith) hc
  refine ⟨v, v1, fun ρ hedge hstop => ?_⟩
  obtain ⟨⟨d, d1, d2, d3⟩, -⟩ := v2
  rw [List.length_map] at d1
  have hm := (mlp_f64_soft_margin L hother hlp hS hp hwl hedge hrun hstop).2 d d1 d2
  have e : (List.zipWith (fun x e => x * (e.2 * (F64.weightedConf f e.1).val)) d S).sum = V := by
    rw [d3, List.zipWith_map_right]
    rfl
  rw [e] at hm
  have v3 := abs_le.mp v3
  norm_num at hm v3 ⊢
  linarith

/-- The hypotheses of `mlp_f64_objective` are met by the run of `exMlpF_run`, with a solver that only answers NaN. -/
example : ∃ f qs, (MLPBoostF.booster exLibm (fun _ _ _ _ _ ws => .ok ws) nanLpF exCerlpPair).run (fun _ _ => true) (10 ^ 8) exMlpF = some (.ok (f, qs)) ∧
    ∃ v : ℝ, softMarginEvalF (fin (3 / 2)) 1 exCerlpPair f = .ok (fin v) := by
  obtain ⟨f, qs, hrun, -, -⟩ := exMlpF_run
  obtain ⟨v, h1, -⟩ := mlp_f64_objective exLibm (by intro t n d hs pos ws r h; cases h; rfl) (by intro eta ub hs r h; cases h; simp) exCerlpPair_good exMlpF_params
    (fun _ _ _ e _ => ⟨if e.1 = true then 1 else -1, rfl, by split <;> simp⟩) hrun (nFeature := 1) one_pos
  exact ⟨f, qs, hrun, v, h1⟩

/-- The data, the trees and the parameters of `mlp_f64_trees`: on the sample of C94, trees with one test, `ν = 1`, the default tolerance; every run that returns before the limit of the
iterations makes no mistake, whatever the LP solver answers. -/
example (lp : Lp (TreeNode F64)) (hlp : Sized lp) : ∃ wl : WeakLearner F64 (TreeNode F64), FTree.IsLearner exLibm ⟨[("x", giniBins)], .edge, 1⟩ giniSample wl ∧
    ∃ s : MLPBoostF (TreeNode F64), MLPBoostF.init exLibm giniSample.rows = .ok s ∧ ∀ fuel f qs,
      (MLPBoostF.booster exLibm (fun _ _ _ _ _ ws => .ok ws) lp giniSample.rows).run wl fuel s = some (.ok (f, qs)) →
      (qs.length : ℝ) < 8 * Real.log ((3 : ℕ) / 1) / F64.round (5 / 1000) ^ 2 - 1 / 1000 → (floatMistakes giniSample.rows f : ℝ) < 1 := by
  obtain ⟨wl, hwl⟩ := exists_floatTreeLearner exLibm ⟨[("x", giniBins)], .edge, 1⟩ giniSample
  obtain ⟨hp, h1⟩ := cerlp_init_good (H := TreeNode F64) exLibm giniSample.rows
  have h3 : giniSample.rows.length = 3 := by rw [floatRows_length]; rfl
  refine ⟨wl, hwl, _, if_neg (by rw [h3]; norm_num), fun fuel f qs hrun hs => ?_⟩
  have hlog : 1 / 2 ≤ Real.log (((3 : ℕ) : ℝ) / 1) := by
    have := Real.one_sub_inv_le_log_of_pos (show (0 : ℝ) < 3 by norm_num)
    norm_num at this ⊢
    linarith
  have hsmall : F64.round (5 / 1000) / (1000 * Real.log (((3 : ℕ) : ℝ) / 1)) ≤ 1 / 1000 := by
    rw [div_le_iff₀ (by linarith)]
    have := hp.hi
    linarith
  exact (mlp_f64_trees exLibm (by intro t n d hs pos ws r h; cases h; rfl) hlp stumpBuilder stumpBuilder_data rfl le_rfl _ stumpBuild wl hwl (ν := 1)
    ⟨hp.tol, hp.lo, hp.hi, rfl, le_rfl, by change (1 : ℝ) ≤ 99 / 100 * (giniSample.rows.length : ℝ); rw [h3]; norm_num⟩
    (θ := 1 / 3) (by norm_num) (by norm_num) giniMargin (by
      change _ + F64.round (5 / 1000) / (1000 * Real.log (((3 : ℕ) : ℝ) / 1)) < _
      norm_num at h1 hsmall ⊢; linarith) hrun).2 hs

/-- The hypotheses of `file_mlp_f64` are met: a svmlight file holding the majority of three columns. -/
example (lp : Lp (TreeNode F64)) (hlp : Sized lp) : ∃ r s b t s₀, SampleReader.read exIndices exCells r = .ok s ∧ s.nSample = 5 ∧
    ((DecisionTreeBuilder.new s).setCriterion .edge).setMaxDepth 1 = .ok b ∧ FTree.build (10 ^ 5) b = some (.ok t) ∧ MLPBoostF.init exLibm s.rows = .ok s₀ ∧
    (∃ wl, FTree.IsLearner exLibm t s wl) ∧ ∀ wl, FTree.IsLearner exLibm t s wl → ∀ fuel f qs,
      (MLPBoostF.booster exLibm (fun _ _ _ _ _ ws => .ok ws) lp s.rows).run wl fuel s₀ = some (.ok (f, qs)) → ∀ q ∈ qs, ∀ it, FTree.Produce exLibm t s q (some (wl it q)) := by
  obtain ⟨r, h⟩ := exRows_learnable
  obtain ⟨s, b, t, s₀, e1, e2, e3, e4, e5, e6, e7⟩ := file_mlp_f64 exLibm (other := fun _ _ _ _ _ ws => .ok ws) (by intro t n d hs pos ws r h; cases h; rfl) hlp h (by norm_num) (by norm_num)
    (by norm_num) (by norm_num) (depth := 1) (by norm_num)
  exact ⟨r, s, b, t, s₀, e1, e2, e3, e4, e5, e6, fun wl hwl fuel f qs hrun => (e7 wl hwl fuel f qs hrun).1⟩

end Miniboosts.Props
