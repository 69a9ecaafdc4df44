import Verif.Props.TreeCalibrated
import Verif.Props.Returns
import Verif.Props.ReturnsConic
import Verif.Props.ResearchBoosters

/-! # C105: the other boosters on decision trees -/

set_option linter.unusedSectionVars false

namespace Miniboosts.Props

open Miniboosts Spec Real

variable {env : TreeEnv ℝ} {t : DecisionTree ℝ} {s : Sample ℝ}

theorem treeFactor_pos (c : Criterion) : 0 < treeFactor c := by cases c <;> simp only [treeFactor] <;> norm_num

theorem rows_errors_zero {p : Sample ℝ × Nat → Int} (h : Spec.errors s.rows p = 0) :
    ∀ i < s.nSample, (p (s, i) : ℝ) = s.target.getD i 0 := by
  intro i hi
  unfold Spec.errors at h
  rw [List.countP_eq_zero] at h
  have := h ((s, i), s.target.getD i 0) (List.mem_map.2 ⟨i, List.mem_range.2 hi, rfl⟩)
  simp only [decide_eq_true_eq, not_not] at this
  exact this.symm

theorem tree_edge_le_one (ok : TreesOk env t s) (k : Nat) (d : List ℝ) (hd : d.length = s.nSample) (hp : IsProb d) :
    Spec.edge s.rows d (conf (treeLearner env t s k d)) ≤ 1 := by
  rw [(treeLearner_calibrated ok k d hd hp).1]
  have : ((List.range s.nSample).map fun i => d.getD i 0).sum = 1 := by
    rw [← hp.2]; exact sum_getD_range d _ hd
  rw [← this]
  apply List.sum_le_sum
  intro i _
  have h1 := treeLearner_range env t s k d (s, i)
  have h2 := getD_nonneg hp.1 i
  have h3 : (conf (treeLearner env t s k d) (s, i) : ℝ) ^ 2 ≤ 1 := by
    rw [← sq_abs]; nlinarith [abs_nonneg (conf (treeLearner env t s k d) (s, i) : ℝ)]
  nlinarith

/-- C105 for GraphSepBoost: on a sample that stumps separate, GraphSepBoost with decision trees of any criterion and depth returns a
hypothesis that predicts the label of every row. -/
theorem graphsep_trees (ok : TreesOk env t s) (hvalid : s.isValidBinaryInstance = .ok ()) {θ : ℝ} (hθ : 0 < θ)
    (hv : StumpMargin s t.bins θ) (s₀ : GraphSepBoost (TreeNode ℝ)) :
    ∃ n f qs, (GraphSepBoost.booster s.rows).run (treeLearner env t s) n s₀ = some (.ok (f, qs)) ∧
      (∀ i < s.nSample, (predict (K := ℝ) f (s, i) : ℝ) = s.target.getD i 0) ∧ AllAnswered env t s qs := by
  have hk := treeFactor_pos t.criterion
  obtain ⟨f, qs, hrun, he⟩ := graphsep_run_zero_error s.rows (rows_checkBinary ok hvalid) (rows_pmLabels ok) s₀ (treeLearner env t s)
    (fun k d hd hp => by
      rw [rows_length] at hd
      have h1 := treeLearner_error ok k d hd hp
      have h2 := (tree_answers ok hθ hv k d hd hp).2
      have : 0 < treeFactor t.criterion * θ ^ 2 := by positivity
      linarith)
  refine ⟨_, f, qs, hrun, rows_errors_zero he, ?_⟩
  obtain ⟨n, qs', s', out, k, h1, -, h3, -, h5, -⟩ := (GraphSepBoost.booster s.rows).run_spec _ s₀ hrun
  intro q hq
  obtain ⟨q1, q2⟩ := graphsep_queries_are_distributions s.rows s₀ _ n qs' s' h1 out h3 q (by rw [← h5]; exact hq)
  exact answered ok (by rw [q1, rows_length]) q2

/-- C105 for SmoothBoost: with `2γ` at most the trees' edge `κ θ²`, it returns, after fewer rounds than its limit; when the limit is at
most the number of rows, fewer than `κ m / √(1-γ)` rows have margin at most `γ/(2+γ)`. -/
theorem smoothboost_trees (ok : TreesOk env t s) (hvalid : s.isValidBinaryInstance = .ok ()) {θ : ℝ} (hθ : 0 < θ)
    (hv : StumpMargin s t.bins θ) (s₀ : SmoothBoost (TreeNode ℝ)) (hk0 : 0 < s₀.kappa) (hk1 : s₀.kappa < 1) (hg0 : 0 < s₀.gamma)
    (hg1 : s₀.gamma < 1 / 2) (hγ : 2 * s₀.gamma ≤ treeFactor t.criterion * θ ^ 2) :
    ∃ f qs, (SmoothBoost.booster s.rows).run (treeLearner env t s) (smoothLimit s₀ + 1) s₀ = some (.ok (f, qs)) ∧
      qs.length < smoothLimit s₀ ∧ AllAnswered env t s qs ∧
      (smoothLimit s₀ ≤ s.nSample →
        (((List.range s.nSample).countP fun i => decide (s.target.getD i 0 * conf f (s, i) ≤ s₀.gamma / (2 + s₀.gamma)) : Nat) : ℝ) <
          s₀.kappa * s.nSample / √(1 - s₀.gamma)) := by
  obtain ⟨f, qs, hrun, hlen, hm⟩ := smoothboost_run_margin_partial s.rows s₀ (treeLearner env t s) (rows_checkBinary ok hvalid)
    (rows_pmLabels ok) (fun k d e _ => treeLearner_range env t s k d e.1) hk0 hk1 hg0 hg1
    (fun k d hd hp _ => hγ.trans (tree_answers ok hθ hv k d (by rw [hd, rows_length]) (isProb_of_pos hp)).2)
  refine ⟨f, qs, hrun, hlen, ?_, ?_⟩
  · obtain ⟨n, qs', s', out, k, h1, -, h3, -, h5, -⟩ := (SmoothBoost.booster s.rows).run_spec _ s₀ hrun
    intro q hq
    obtain ⟨q1, q2, -⟩ := smoothboost_smooth s.rows s₀ hg0.le _ n qs' s' h1 out h3 q (by rw [← h5]; exact hq)
    exact answered ok (by rw [q1, rows_length]) (isProb_of_pos q2)
  · intro hl
    have := hm (by rw [rows_length]; omega)
    rw [rows_length] at this
    refine lt_of_le_of_lt (le_of_eq ?_) this
    unfold Sample.rows
    rw [List.countP_map]
    rfl

/-- MadaBoost returns whenever every answer has a positive edge and at least one round is allowed. -/
theorem madaboost_returns_positive {H X : Type*} [Classifier H X ℝ] (S : Examples X ℝ) (hvalid : checkBinary S = .ok ())
    (s₀ : MadaBoost H) (wl : WeakLearner ℝ H) (hlim : 0 < madaLimit S s₀)
    (hwl : ∀ k d, d.length = S.length → IsPosProb d → 0 < Spec.edge S d (conf (wl k d))) :
    ∃ f qs, (MadaBoost.booster S).run wl (madaLimit S s₀ + 1) s₀ = some (.ok (f, qs)) := by
  obtain ⟨r, hr⟩ := (madaboost_terminates S s₀ wl).1
  have hp : ∃ s', (MadaBoost.booster S).preprocess s₀ wl = .ok s' := by
    simp only [MadaBoost.booster, MadaBoost.preprocess, hvalid]; exact ⟨_, rfl⟩
  obtain ⟨s', hp⟩ := hp
  have hS := checkBinary_ne_nil hvalid
  rw [madaboost_returns_iff]
  unfold Booster.run at hr
  rw [hp] at hr
  simp only [] at hr
  cases hl : (MadaBoost.booster S).loop wl (madaLimit S s₀ + 1) s' 1 with
  | none => rw [hl] at hr; simp at hr
  | some r' =>
    rcases Booster.loop_spec _ wl s₀ (Booster.Reachable.start hp) hl with
      ⟨n', qs', s'', h1, h2, e, h3, h4⟩ | ⟨n', qs', s'', out, k, h1, h2, h3, h4, qs, h5, h6⟩
    · obtain ⟨out, ho⟩ := madaboost_boost_never_panics S s₀ wl n' qs' s'' h1
      rw [ho] at h3; cases h3
    · refine ⟨n', qs', s'', h1, ?_⟩
      have hi := MadaBoost.inv_of_reachable h1
      have hmax : s''.maxIter = madaLimit S s₀ := hi.max
      have hle := hi.le
      have hbc := MadaBoost.boost_cases (wl := wl) (it := n' + 1) hi.ne hi.betas
      simp only [] at hbc
      have hb' := h3
      rw [show (MadaBoost.booster S).boost s'' wl (n' + 1) = MadaBoost.boost S s'' wl (n' + 1) from rfl, hbc] at hb'
      split at hb'
      · right
        have hn : n' = madaLimit S s₀ := by omega
        refine ⟨hn, ?_⟩
        obtain ⟨rest, e, -⟩ := madaboost_first h1 (n' - 1) (by omega)
        rw [e]
        refine ⟨_, List.mem_cons_self, ?_⟩
        have hpos : (0 : ℝ) < S.length := by exact_mod_cast List.length_pos_iff.2 hS
        refine hwl 1 _ (by simp [Props.uniform]) ⟨?_, ?_⟩
        · intro p hp
          rw [List.eq_of_mem_replicate hp]; positivity
        · unfold Props.uniform
          rw [List.sum_replicate, nsmul_eq_mul]; field_simp
      · left
        refine ⟨by omega, out, ?_⟩
        split at hb'
        · rename_i h1'
          rw [Except.ok.injEq] at hb'
          have hq : out.queries = [MadaBoost.clip S (weightedConf (X := X)
            ((Spec.edges S conf qs' s''.hypotheses).map MadaBoost.betaOf) s''.hypotheses)] := by rw [← hb']
          refine ⟨_, h3, hq, ?_⟩
          obtain ⟨w1, -⟩ := madaboost_weights S s₀ wl n' qs' s'' h1 out h3
          obtain ⟨w2, w3⟩ := w1 _ (List.mem_append_right _ (by rw [hq]; exact List.mem_cons_self))
          have := hwl (n' + 1) _ w2 w3
          rwa [abs_of_pos this] at h1'
        · rw [Except.ok.injEq] at hb'; subst hb'; cases h4

/-- C105 for MadaBoost: it returns. -/
theorem madaboost_trees (ok : TreesOk env t s) (hvalid : s.isValidBinaryInstance = .ok ()) {θ : ℝ} (hθ : 0 < θ)
    (hv : StumpMargin s t.bins θ) (s₀ : MadaBoost (TreeNode ℝ)) (hlim : 0 < madaLimit s.rows s₀) :
    ∃ f qs, (MadaBoost.booster s.rows).run (treeLearner env t s) (madaLimit s.rows s₀ + 1) s₀ = some (.ok (f, qs)) ∧
      AllAnswered env t s qs := by
  have hk := treeFactor_pos t.criterion
  obtain ⟨f, qs, hrun⟩ := madaboost_returns_positive s.rows (rows_checkBinary ok hvalid) s₀ (treeLearner env t s) hlim
    (fun k d hd hp => lt_of_lt_of_le (by positivity) (tree_answers ok hθ hv k d (by rw [hd, rows_length]) (isProb_of_pos hp)).2)
  refine ⟨f, qs, hrun, ?_⟩
  obtain ⟨n, qs', s', out, k, h1, -, h3, -, h5, -⟩ := (MadaBoost.booster s.rows).run_spec _ s₀ hrun
  intro q hq
  obtain ⟨q1, q2⟩ := (madaboost_weights s.rows s₀ _ n qs' s' h1 out h3).1 q (by rw [← h5]; exact hq)
  exact answered ok (by rw [q1, rows_length]) (isProb_of_pos q2)

/-- C105 for ERLPBoost: it returns a convex combination of trees. -/
theorem erlp_trees (ok : TreesOk env t s) (hvalid : s.isValidBinaryInstance = .ok ()) {θ : ℝ} (hθ : 0 < θ) (hv : StumpMargin s t.bins θ)
    (s₀ : ERLPBoost (TreeNode ℝ)) (hn : s₀.nSample = s.nSample) (htol : 0 < s₀.halfTolerance) (htol1 : s₀.halfTolerance < 1)
    (hnu1 : 1 ≤ s₀.nu) (hnu2 : s₀.nu ≤ s.nSample) (solver : Solver ℝ) (hsolver : solver.Correct) (hrep : solver.Reports) (fuel : Nat)
    (hfuel : ERLP.enough s.nSample ≤ fuel) :
    ∃ f qs, (ERLPBoost.booster solver fuel s.rows).run (treeLearner env t s) (erlpLimit s.rows s₀ + 1) s₀ = some (.ok (f, qs)) ∧
      IsProb f.weights ∧ (∀ h ∈ f.hypotheses, ∃ d, h = treeLearner env t s 1 d) ∧ AllAnswered env t s qs := by
  have hk := treeFactor_pos t.criterion
  have hb : ∀ k d, ∀ e ∈ s.rows, |e.2 * conf (treeLearner env t s k d) e.1| ≤ (1 : ℝ) := by
    intro k d e he
    rw [abs_mul]
    have h1 := treeLearner_range env t s k d e.1
    have h2 : |e.2| = 1 := by rcases rows_pmLabels ok e he with h | h <;> rw [h] <;> simp
    rw [h2, one_mul]; exact h1
  obtain ⟨f, qs, hrun, hw, hh⟩ := erlp_returns s.rows s₀ (by rw [hn, rows_length]) (rows_checkBinary ok hvalid) htol htol1 hnu1
    (by rw [rows_length]; exact hnu2) solver hsolver hrep fuel (by rw [rows_length]; exact hfuel) (treeLearner env t s) hb
    (fun d hd hp => by
      have h1 := (tree_answers ok hθ hv 1 d (by rw [hd, rows_length]) (isProb_of_capped hp)).2
      have h2 : 0 < treeFactor t.criterion * θ ^ 2 := by positivity
      linarith)
  refine ⟨f, qs, hrun, hw, fun h hhh => ?_, ?_⟩
  · obtain ⟨k, d, e⟩ := hh h hhh
    exact ⟨d, e⟩
  · obtain ⟨n, qs', s', out, k, h1, -, h3, -, h5, -⟩ := (ERLPBoost.booster solver fuel s.rows).run_spec _ s₀ hrun
    have hall : ∀ {n qs st} (_ : (ERLPBoost.booster solver fuel s.rows).Reachable (treeLearner env t s) s₀ n qs st),
        ∀ q ∈ qs, q.length = s.nSample ∧ IsCapped s₀.nu q := by
      intro n qs st hr
      induction hr with
      | start _ => simp
      | @step n qs st out hr hb hf ih =>
        intro q hq
        rcases List.mem_append.1 hq with hq | hq
        · exact ih q hq
        · have := erlp_queries_capped s.rows s₀ (by rw [hn, rows_length]) solver hsolver fuel _ n qs st hr out hb q hq
          rw [rows_length] at this
          exact this
    intro q hq
    rw [h5] at hq
    rcases List.mem_append.1 hq with hq | hq
    · obtain ⟨q1, q2⟩ := hall h1 q hq
      exact answered ok q1 (isProb_of_capped q2)
    · obtain ⟨q1, q2⟩ := erlp_queries_capped s.rows s₀ (by rw [hn, rows_length]) solver hsolver fuel _ n qs' s' h1 out h3 q hq
      exact answered ok (by rw [q1, rows_length]) (isProb_of_capped q2)

/-- C105 for SoftBoost, a disagreement with the documentation: with decision trees SoftBoost never makes progress.  For every sample,
criterion and depth, and every tolerance and `ν < n`, it asks for a tree for the uniform distribution in every round, and the vote it
returns is that one tree. -/
theorem softboost_trees_single (ok : TreesOk env t s) (hvalid : s.isValidBinaryInstance = .ok ()) (s₀ : SoftBoost (TreeNode ℝ))
    (htol : s₀.tolerance ≠ 0) (hnu1 : 1 ≤ s₀.nu) (hnu2 : s₀.nu < s.nSample) (solver : Solver ℝ) (hsolver : solver.Correct) (fuel : Nat) :
    ∃ tree f, t.produce env s (List.replicate s.nSample (1 / (s.nSample : ℝ))) = .ok tree ∧
      (SoftBoost.booster solver (fuel + 2) s.rows).run (treeLearner env t s) (softLimit s.rows s₀ + 1) s₀
        = some (.ok (f, List.replicate (softLimit s.rows s₀) (List.replicate s.nSample (1 / (s.nSample : ℝ))))) ∧
      ∀ x : Sample ℝ × Nat, (conf f x : ℝ) = conf tree x := by
  have hpos : (0 : ℝ) < s.nSample := by linarith
  have hu : IsProb (List.replicate s.nSample (1 / (s.nSample : ℝ))) := by
    constructor
    · intro p hp
      rw [List.eq_of_mem_replicate hp]; positivity
    · rw [List.sum_replicate, nsmul_eq_mul]; field_simp
  have ht := ok.train _ (by simp) hu
  obtain ⟨tree, h⟩ := tree_training_succeeds ht
  have hl : ∀ k, treeLearner env t s k (List.replicate s.nSample (1 / (s.nSample : ℝ))) = tree := fun k => by unfold treeLearner; rw [h]
  obtain ⟨f, hrun, hc⟩ := softboost_stuck_run s.rows s₀ (rows_checkBinary ok hvalid) htol hnu1 (by rw [rows_length]; exact hnu2) solver hsolver
    fuel (treeLearner env t s) tree (by rw [rows_length]; exact hl) (by
      rw [rows_length, ← hl 1]
      exact tree_edge_le_one ok 1 _ (by simp) hu)
  refine ⟨tree, f, h, ?_, hc⟩
  rw [rows_length] at hrun
  exact hrun

/-- The same for TotalBoost. -/
theorem totalboost_trees_single (ok : TreesOk env t s) (hvalid : s.isValidBinaryInstance = .ok ()) (s₀ : TotalBoost (TreeNode ℝ))
    (hnu : s₀.softboost.nu = 1) (htol : s₀.softboost.tolerance ≠ 0) (h2 : 2 ≤ s.nSample) (solver : Solver ℝ) (hsolver : solver.Correct)
    (fuel : Nat) :
    ∃ tree f, t.produce env s (List.replicate s.nSample (1 / (s.nSample : ℝ))) = .ok tree ∧
      (TotalBoost.booster solver (fuel + 2) s.rows).run (treeLearner env t s) (softLimit s.rows s₀.softboost + 1) s₀
        = some (.ok (f, List.replicate (softLimit s.rows s₀.softboost) (List.replicate s.nSample (1 / (s.nSample : ℝ))))) ∧
      ∀ x : Sample ℝ × Nat, (conf f x : ℝ) = conf tree x := by
  have : (2 : ℝ) ≤ s.nSample := by exact_mod_cast h2
  obtain ⟨tree, f, h1, h2, h3⟩ := softboost_trees_single ok hvalid s₀.softboost htol (by rw [hnu]) (by rw [hnu]; linarith) solver hsolver fuel
  exact ⟨tree, f, h1, by rw [(totalboost_is_softboost s.rows solver (fuel + 2) _).2.2.2]; exact h2, h3⟩

/-! ## A sample on which one tree is not enough -/

theorem evalAt_path {s : Sample ℝ} {i j : Nat} (tree : TreeNode ℝ) (h : path s i tree = path s j tree) : evalAt s i tree = evalAt s j tree := by
  induction tree with
  | leaf c => rfl
  | branch rule l r ihl ihr =>
    unfold path at h
    unfold evalAt leftOf
    split at h <;> split at h
    · rename_i h1 h2
      rw [if_pos (by simpa using h1), if_pos (by simpa using h2)]
      exact ihl (List.cons.inj h).2
    · simp at h
    · simp at h
    · rename_i h1 h2
      rw [if_neg (by simpa using h1), if_neg (by simpa using h2)]
      exact ihr (List.cons.inj h).2

theorem path_one {s : Sample ℝ} {i j : Nat} {rule : Splitter ℝ} {l r : TreeNode ℝ} (hi : (path s i (.branch rule l r)).length ≤ 1)
    (hj : (path s j (.branch rule l r)).length ≤ 1)
    (h : cell s rule.feature i < rule.threshold ↔ cell s rule.feature j < rule.threshold) :
    path s i (.branch rule l r) = path s j (.branch rule l r) := by
  unfold path at hi hj ⊢
  by_cases h1 : cell s rule.feature i < rule.threshold
  · have h2 := h.1 h1
    rw [if_pos h1] at hi ⊢
    rw [if_pos h2] at hj ⊢
    simp only [List.length_cons] at hi hj
    rw [List.length_eq_zero_iff.1 (by omega : (path s i l).length = 0), List.length_eq_zero_iff.1 (by omega : (path s j l).length = 0)]
  · have h2 := fun h' => h1 (h.2 h')
    rw [if_neg h1] at hi ⊢
    rw [if_neg h2] at hj ⊢
    simp only [List.length_cons] at hi hj
    rw [List.length_eq_zero_iff.1 (by omega : (path s i r).length = 0), List.length_eq_zero_iff.1 (by omega : (path s j r).length = 0)]

/-- A trained tree with at most one test gives the third row the same confidence as one of its neighbours. -/
theorem one_test_same (tree : TreeNode ℝ) (hh : ∀ i, (path exRealSample i tree).length ≤ 1) :
    evalAt exRealSample 1 tree = evalAt exRealSample 2 tree ∨ evalAt exRealSample 2 tree = evalAt exRealSample 3 tree := by
  cases tree with
  | leaf c => left; rfl
  | branch rule l r =>
    have hc : cell exRealSample rule.feature 1 ≤ cell exRealSample rule.feature 2 ∧
        cell exRealSample rule.feature 2 ≤ cell exRealSample rule.feature 3 := by
      by_cases h : "x" = rule.feature
      · constructor <;> simp [cell, exRealSample, Feature.name, Feature.val, h]; norm_num
      · constructor <;> simp [cell, exRealSample, Feature.name, h]
    by_cases h2 : cell exRealSample rule.feature 2 < rule.threshold
    · left
      exact evalAt_path _ (path_one (hh 1) (hh 2) ⟨fun _ => h2, fun _ => by linarith [hc.1]⟩)
    · right
      exact evalAt_path _ (path_one (hh 2) (hh 3) ⟨fun h => absurd h h2, fun h => absurd (lt_of_le_of_lt hc.2 h) h2⟩)

/-- C105, negation: on a four-row sample that a vote of three stumps separates with margin 1/3 (so AdaBoost with one-test trees gets every
row right), SoftBoost with one-test trees, whatever the criterion, tolerance, `ν < 4` and solver, returns a hypothesis that is wrong on
some row. -/
theorem softboost_trees_wrong (c : Criterion) (s₀ : SoftBoost (TreeNode ℝ)) (htol : s₀.tolerance ≠ 0) (hnu1 : 1 ≤ s₀.nu) (hnu2 : s₀.nu < 4)
    (solver : Solver ℝ) (hsolver : solver.Correct) (fuel : Nat) :
    StumpMargin exRealSample (exRealTree c).bins (1 / 3) ∧
    ∃ f qs, (SoftBoost.booster solver (fuel + 2) exRealSample.rows).run (treeLearner exRealEnv (exRealTree c) exRealSample)
        (softLimit exRealSample.rows s₀ + 1) s₀ = some (.ok (f, qs)) ∧
      ∃ i < exRealSample.nSample, (predict (K := ℝ) f (exRealSample, i) : ℝ) ≠ exRealSample.target.getD i 0 := by
  refine ⟨exReal_margin c, ?_⟩
  obtain ⟨tree, f, h1, h2, h3⟩ := softboost_trees_single (exReal_ok c) exReal_binary s₀ htol hnu1 (by simpa [exRealSample] using hnu2) solver
    hsolver fuel
  refine ⟨f, _, h2, ?_⟩
  have hd : ∀ i, (path exRealSample i tree).length ≤ 1 := fun i => tree_depth h1 exRealSample i
  obtain ⟨node, _, hr, hg, e⟩ := produce_grown (exReal_ok c).order (exReal_ok c).sample (by simp) h1
  have hev := grown_confidence_all (exReal_ok c).sample node hr.1 hg
  rw [← e] at hev
  obtain ⟨g, hp⟩ : ∃ g : ℝ → Int, ∀ i < 4, (predict (K := ℝ) f (exRealSample, i) : Int) = g (evalAt exRealSample i tree) := by
    refine ⟨fun x => if 0 ≤ x then 1 else -1, fun i hi => ?_⟩
    unfold predict
    rw [h3, conf_ok (hev i hi)]
  by_contra hcon
  push Not at hcon
  have q1 := hcon 1 (by norm_num [exRealSample])
  have q2 := hcon 2 (by norm_num [exRealSample])
  have q3 := hcon 3 (by norm_num [exRealSample])
  rw [hp _ (by norm_num)] at q1 q2 q3
  have t1 : exRealSample.target.getD 1 0 = -1 := rfl
  have t2 : exRealSample.target.getD 2 0 = 1 := rfl
  have t3 : exRealSample.target.getD 3 0 = -1 := rfl
  rw [t1] at q1; rw [t2] at q2; rw [t3] at q3
  rcases one_test_same tree hd with h | h
  · rw [h, q2] at q1; norm_num at q1
  · rw [h, q3] at q2; norm_num at q2

/-- The hypotheses of the positive theorems are met by the same sample. -/
example (c : Criterion) (s₀ : GraphSepBoost (TreeNode ℝ)) :
    ∃ n f qs, (GraphSepBoost.booster exRealSample.rows).run (treeLearner exRealEnv (exRealTree c) exRealSample) n s₀ = some (.ok (f, qs)) ∧
      ∀ i < exRealSample.nSample, (predict (K := ℝ) f (exRealSample, i) : ℝ) = exRealSample.target.getD i 0 := by
  obtain ⟨n, f, qs, h1, h2, -⟩ := graphsep_trees (exReal_ok c) exReal_binary (by norm_num) (exReal_margin c) s₀
  exact ⟨n, f, qs, h1, h2⟩

end Miniboosts.Props
