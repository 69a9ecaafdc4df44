import Verif.Lemmas.ParMisc
import Verif.Lemmas.ParBoost
import Verif.Props.AdaBoost
import Verif.Props.AdaBoostV
import Verif.Props.MadaBoost
import Verif.Props.SmoothBoost
import Verif.Props.GBMBoost
import Verif.Props.Bins

set_option linter.unusedSectionVars false

/-! # Schedules: C88, C89

The executions quantified over are those of `Model/Rayon.lean`: every division of the work of a parallel iterator, every interleaving
of the updates of a parallel loop, every order in which a hash map is traversed. -/

namespace Miniboosts.Props

open Miniboosts Spec

/-! ## Boosters -/

theorem runs_unique {σ K H O : Type*} [Field K] [LinearOrder K] {P : ParBooster σ K H O} {B : Booster σ K H O} {wl : WeakLearner K H}
    {s₀ : σ} (h : P.Agrees B wl s₀) (hpre : P.preprocess = B.preprocess) (hpost : P.postprocess = B.postprocess)
    {n : Nat} {r : Except Panic (O × List (List K))} (hr : B.run wl n s₀ = some r) (r' : Except Panic (O × List (List K))) :
    P.Runs wl s₀ r' ↔ r' = r := by
  rw [ParBooster.runs_iff h hpre hpost]
  constructor
  · rintro ⟨m, hm⟩
    have h1 := Booster.run_mono B wl (le_max_left n m) hr
    have h2 := Booster.run_mono B wl (le_max_right n m) hm
    rw [h1] at h2
    exact (Option.some.inj h2).symm
  · rintro rfl; exact ⟨n, hr⟩

/-- C88: on every input the executions of AdaBoost all end in the same way — the same hypothesis after the same queries to the weak
learner, or the same panic — whatever the threads do; the sequential execution is one of them. -/
theorem adaboost_schedule_independent {H X : Type*} [Classifier H X ℝ] (S : Examples X ℝ) (wl : WeakLearner ℝ H) (s₀ : AdaBoost H) :
    ∃ r, (∀ r', (AdaBoost.parBooster S).Runs wl s₀ r' ↔ r' = r) ∧ (AdaBoost.booster S).run wl (adaboostLimit S s₀ + 1) s₀ = some r := by
  obtain ⟨r, hr⟩ := (adaboost_terminates S s₀ wl).1
  exact ⟨r, runs_unique (AdaBoost.parAgrees S wl s₀) rfl rfl hr, hr⟩

/-- C88: AdaBoostV. -/
theorem adaboostv_schedule_independent {H X : Type*} [Classifier H X ℝ] (S : Examples X ℝ) (wl : WeakLearner ℝ H) (s₀ : AdaBoostV H) :
    ∃ r, (∀ r', (AdaBoostV.parBooster S).Runs wl s₀ r' ↔ r' = r) ∧ (AdaBoostV.booster S).run wl (adaboostvLimit S s₀ + 1) s₀ = some r := by
  obtain ⟨r, hr⟩ := (adaboostv_terminates S s₀ wl).1
  exact ⟨r, runs_unique (AdaBoostV.parAgrees S wl s₀) rfl rfl hr, hr⟩

/-- C88: MadaBoost. -/
theorem madaboost_schedule_independent {H X : Type*} [Classifier H X ℝ] (S : Examples X ℝ) (wl : WeakLearner ℝ H) (s₀ : MadaBoost H) :
    ∃ r, (∀ r', (MadaBoost.parBooster S).Runs wl s₀ r' ↔ r' = r) ∧ (MadaBoost.booster S).run wl (madaLimit S s₀ + 1) s₀ = some r := by
  obtain ⟨r, hr⟩ := (madaboost_terminates S s₀ wl).1
  exact ⟨r, runs_unique (MadaBoost.parAgrees S wl s₀) rfl rfl hr, hr⟩

/-- C88: SmoothBoost. -/
theorem smoothboost_schedule_independent {H X : Type*} [Classifier H X ℝ] (S : Examples X ℝ) (wl : WeakLearner ℝ H) (s₀ : SmoothBoost H) :
    ∃ r, (∀ r', (SmoothBoost.parBooster S).Runs wl s₀ r' ↔ r' = r) ∧ (SmoothBoost.booster S).run wl (smoothLimit s₀ + 1) s₀ = some r := by
  obtain ⟨r, hr⟩ := (smoothboost_terminates S s₀ wl).1
  exact ⟨r, runs_unique (SmoothBoost.parAgrees S wl s₀) rfl rfl hr, hr⟩

/-- C88: GBM. -/
theorem gbm_schedule_independent {H X K : Type*} [Field K] [LinearOrder K] [IsStrictOrderedRing K] [Regressor H X K]
    (best : List K → List K → Except Panic K) (S : Examples X K) (wl : WeakLearner K H) (s₀ : GBM K H) :
    ∃ r, (∀ r', (GBM.parBooster best S).Runs wl s₀ r' ↔ r' = r) ∧ (GBM.booster best S).run wl (s₀.maxIter + 1) s₀ = some r := by
  obtain ⟨r, hr⟩ := (gbm_terminates best S s₀ wl).1
  exact ⟨r, runs_unique (GBM.parAgrees best S wl s₀) rfl rfl hr, hr⟩

/-- C88, an instance: on the two-example sample every execution of AdaBoost with the limit 6 returns the same hypothesis, which makes
no mistake. -/
example : ∃ f qs, (∀ r, (AdaBoost.parBooster exSample).Runs exLearner exBooster r ↔ r = .ok (f, qs)) ∧
    Spec.errors exSample (predict (K := ℝ) f) = 0 := by
  obtain ⟨f, qs, hrun, he⟩ : ∃ f qs, (AdaBoost.booster exSample).run exLearner (6 + 1) exBooster = some (.ok (f, qs)) ∧
      Spec.errors exSample (predict (K := ℝ) f) = 0 := by
    refine adaboost_run_zero_error exSample exBooster exLearner exSample_valid ?_ ?_ (1 / 2) (by norm_num) ?_ ?_
    · intro e he; simp [exSample] at he; rcases he with rfl | rfl <;> simp
    · intro k d e he
      simp [exSample] at he
      rcases he with rfl | rfl
      · simp only [exLearner, conf, if_true]; rw [abs_of_pos] <;> norm_num
      · simp only [exLearner, conf]; norm_num [abs_of_neg]
    · intro k d hl hd; rw [exLearner_edge k d hl hd]
    · have hlim : adaboostLimit exSample exBooster = 6 := rfl
      have h2 := Real.log_two_lt_d9
      rw [hlim]
      simp only [exSample, List.length_cons, List.length_nil]
      norm_num
      linarith
  exact ⟨f, qs, runs_unique (AdaBoost.parAgrees exSample exLearner exBooster) rfl rfl hrun, he⟩

/-- C88, an execution in which two threads overlap: cell 0 is read, cell 1 is read and written, then cell 0 is written. -/
example : ParMap (fun x : ℚ => x / 2) [4, 6] [2, 3] :=
  ⟨[.load 0, .load 1, .store 1, .store 0], ⟨fun i hi => by have hi' : i < 2 := hi; interval_cases i <;> decide, by decide⟩, by decide +kernel⟩

/-- C88, a sum divided between three threads. -/
example : ParInner [1, 2, 3] [4, 5, 6] 32 :=
  ⟨.join (.seq [4]) (.join (.seq [10]) (.seq [18])), by norm_num [Split.items], by norm_num [Split.sum, Split.foldWith]⟩

/-! ## The other parallel functions -/

variable {K : Type*} [Field K] [LinearOrder K]

/-- C88: the inner product (the edge of a hypothesis; the direction of a Frank–Wolfe step) is the sum of the products, whatever the
division of the work. -/
theorem inner_product_schedule_independent (v w : List ℝ) (r : ℝ) : ParInner v w r ↔ r = (List.zipWith (fun a b => a * b) v w).sum := by
  rw [parInner_iff]; rfl

/-- C88: normalising, the statistics of a sample, appending a row, the affine map of a layer and the density of naive Bayes have
exactly one result. -/
theorem parallel_functions_schedule_independent :
    (∀ (v : List K) o, Par.Normalize v o ↔ o = (normalize v).toOption) ∧
    (∀ (s : Sample K) w o, Par.Mean s w o ↔ o = (s.weightedMean w).toOption) ∧
    (∀ (s : Sample K) w o, Par.MeanAndVariance s w o ↔ o = (s.weightedMeanAndVariance w).toOption) ∧
    (∀ (s : Sample K) y w o, Par.MeanForLabel s y w o ↔ o = (s.weightedMeanForLabel y w).toOption) ∧
    (∀ (s : Sample K) y w o, Par.MeanAndVarianceForLabel s y w o ↔ o = (s.weightedMeanAndVarianceForLabel y w).toOption) ∧
    (∀ (s : Sample K) row x y s', Par.Append s row x y s' ↔ s' = s.append row x y) ∧
    (∀ (l : Layer) x o, Par.Affine l x o ↔ o = (l.affine x).toOption) ∧
    (∀ (g : Gaussian) s row o, Par.LogProbability g s row o ↔ o = (g.logProbability s row).toOption) :=
  ⟨Par.normalize_iff, fun s _ => Par.collect_iff _ s.features, fun s _ => Par.collect_iff _ s.features,
    fun s _ _ => Par.collect_iff _ s.features, fun s _ _ => Par.collect_iff _ s.features, Par.append_iff, Par.affine_iff,
    Par.logProbability_iff⟩

/-! ## The tree learners -/

variable [IsStrictOrderedRing K]

/-- C89: with labels ±1 the tree a decision-tree learner returns depends neither on the schedule nor on the order in which its hash
maps are traversed (and neither does whether it panics): it is that of the sequential model, with any order of traversal. -/
theorem decision_tree_schedule_independent [FloorRing K] {env : TreeEnv K} (horder : ∀ m, (env.order m).Perm m) (t : DecisionTree K)
    (s : Sample K) (hy : ∀ y ∈ s.target, y = 1 ∨ y = -1) (dist : List K) (o : Option (TreeNode K)) :
    Par.Produce env t s dist o ↔ o = (t.produce env s dist).toOption := Par.produce_iff horder t s hy dist o

/-- C89: the regression tree depends neither on the schedule nor on the traversals. -/
theorem regression_tree_schedule_independent (env : TreeEnv K) (t : RegressionTree K) (s : Sample K) (predictions : List K)
    (o : Option (TreeNode K)) : ParReg.Produce env t s predictions o ↔ o = (t.produce env s predictions).toOption :=
  ParReg.produce_iff env t s predictions o

/-- C89, an instance: every execution on the four-row sample returns the same tree. -/
example : ∃ tree, ∀ o, Par.Produce exEnv exTree exTreeSample exDist o ↔ o = some tree := by
  obtain ⟨tree, ht⟩ : ∃ tree, exTree.produce exEnv exTreeSample exDist = .ok tree := tree_training_succeeds exTree_ok
  refine ⟨tree, fun o => ?_⟩
  rw [decision_tree_schedule_independent (fun m => List.Perm.refl m) exTree exTreeSample (by simp [exTreeSample]) exDist o, ht]
  rfl

/-! ## Several classes -/

/-- Three rows with the labels 1, 2, 3 and a constant column. -/
def exMultiSample : Sample ℚ :=
  { nameToIndex := [("x", 0)], features := [.dense ⟨"x", [0, 0, 0]⟩], target := [1, 2, 3], nSample := 3, nFeature := 1 }

def exMultiTree : DecisionTree ℚ := { bins := [("x", [⟨-1000, 1000⟩])], criterion := .edge, maxDepth := 1 }

def exMultiDist : List ℚ := [2 / 5, 2 / 5, 1 / 5]

theorem exMulti_produce (c l : ℚ) (hl : l ≠ 0) (h : Par.ConfLoss exMultiSample exMultiDist [0, 1, 2] (some (c, l))) :
    Par.Produce exEnv exMultiTree exMultiSample exMultiDist (some (.leaf c)) := by
  have hp : DecisionTree.positiveRows exMultiDist (List.range exMultiSample.nSample) = .ok [0, 1, 2] := by decide +kernel
  have hs : (DecisionTree.sumDist exMultiDist [0, 1, 2]).toOption = some 1 := by decide +kernel
  have hb : (Criterion.bestSplit exEnv exMultiTree.criterion exMultiTree.bins exMultiSample exMultiDist [0, 1, 2]).toOption = some ("x", -1000) := by
    decide +kernel
  have hr : DecisionTree.splitRows ⟨"x", -1000⟩ exMultiSample [0, 1, 2] = .ok ([], [0, 1, 2]) := by decide +kernel
  simp only [Par.Produce, hp, List.cons_ne_nil, if_false]
  refine ⟨some (.leaf c 1 l), ?_, rfl⟩
  change Par.FullTree exEnv exMultiTree exMultiSample exMultiDist (0 + 1) [0, 1, 2] _
  refine ⟨some 1, some (c, l), (Par.sumAt_iff _ _ _).mpr hs.symm, h, ?_⟩
  simp only [hl, if_false]
  refine ⟨some ("x", -1000), (Par.bestSplit_iff _ _ _ _ _ _ _).mpr hb.symm, ?_⟩
  simp [hr]

/-- C89 is false with more than two classes: on three rows labelled 1, 2, 3 the returned leaf depends on the order in which the hash
map of the label weights is traversed (`HashMap` is seeded at random), so that two calls with the same arguments may return different
hypotheses. -/
theorem multiclass_tree_depends_on_hash_order :
    Par.Produce exEnv exMultiTree exMultiSample exMultiDist (some (.leaf (-1 / 5))) ∧
    Par.Produce exEnv exMultiTree exMultiSample exMultiDist (some (.leaf (-2 / 5))) := by
  have hc : countLabels exMultiSample.target exMultiDist [0, 1, 2] [] = .ok [(1, 2 / 5), (2, 2 / 5), (3, 1 / 5)] := by decide +kernel
  constructor
  · refine exMulti_produce _ (3 / 5) (by norm_num) ?_
    simp only [Par.ConfLoss, List.cons_ne_nil, if_false, hc]
    exact ⟨1, ⟨_, .refl _, by decide +kernel⟩, .seq [(2, 2 / 5), (1, 2 / 5), (3, 1 / 5)], .swap _ _ _, by decide +kernel⟩
  · refine exMulti_produce _ (3 / 5) (by norm_num) ?_
    simp only [Par.ConfLoss, List.cons_ne_nil, if_false, hc]
    exact ⟨1, ⟨_, .refl _, by decide +kernel⟩, .seq [(1, 2 / 5), (2, 2 / 5), (3, 1 / 5)], .refl _, by decide +kernel⟩

end Miniboosts.Props
