import Verif.Props.TreePanic
import Verif.Props.GraphSepBoost

/-! # C104: the confidences of decision trees are calibrated -/

set_option linter.unusedSectionVars false

namespace Miniboosts.Props

open Miniboosts Spec

section generic

variable {K : Type*} [Field K] [LinearOrder K] [IsStrictOrderedRing K] [FloorRing K]

theorem sum_scale {A : Type*} (l : List A) (f : A → K) (c : K) : (l.map fun a => f a * c).sum = (l.map f).sum * c := by
  induction l with
  | nil => simp
  | cons a l ih => simp only [List.map_cons, List.sum_cons, ih]; ring

theorem sum_div_two {A : Type*} (l : List A) (f : A → K) : (l.map fun a => f a / 2).sum = (l.map f).sum / 2 := by
  induction l with
  | nil => simp
  | cons a l ih => simp only [List.map_cons, List.sum_cons, ih]; ring

theorem sum_sub_map {A : Type*} (l : List A) (f g : A → K) : (l.map f).sum - (l.map g).sum = (l.map fun a => f a - g a).sum := by
  induction l with
  | nil => simp
  | cons a l ih => simp only [List.map_cons, List.sum_cons, ← ih]; ring

theorem grown_calibrated {s : Sample K} {dist : List K} (g : K → K) (node : TrainNode K) : ∀ {idx : List Nat}, RowsOk s dist idx →
    (∀ i ∈ idx, s.target.getD i 0 = 1 ∨ s.target.getD i 0 = -1) → Grown s dist idx node →
    (idx.map fun i => dist.getD i 0 * (s.target.getD i 0 * g (evalAt s i (TreeNode.ofTrain node)))).sum
      = (idx.map fun i => dist.getD i 0 * (evalAt s i (TreeNode.ofTrain node) * g (evalAt s i (TreeNode.ofTrain node)))).sum := by
  induction node with
  | leaf c w l =>
    intro idx hr hpm h
    have hm := leafOk_mean hr hpm h
    simp only [TreeNode.ofTrain, evalAt, ← mul_assoc]
    rw [sum_scale, sum_scale, sum_scale]
    have : (idx.map fun i => dist.getD i 0 * s.target.getD i 0).sum = labelSum s dist idx := rfl
    rw [this, ← hm]
    have : (idx.map fun i => dist.getD i 0).sum = weightOf dist idx := rfl
    rw [this]; ring
  | branch rule left right c w l n ihl ihr =>
    intro idx hr hpm h
    obtain ⟨h1, h2, h3, h4, h7, h5, h6⟩ := h
    have i1 := ihl (rowsOk_filter hr h3) (fun j hj => hpm j (List.mem_filter.mp hj).1) h5
    have i2 := ihr (rowsOk_filter hr h4) (fun j hj => hpm j (List.mem_filter.mp hj).1) h6
    simp only [TreeNode.ofTrain]
    have hl : ∀ i ∈ idx.filter (leftOf s rule), evalAt s i (.branch rule (TreeNode.ofTrain left) (TreeNode.ofTrain right))
        = evalAt s i (TreeNode.ofTrain left) := by
      intro i hi
      simp [evalAt, (List.mem_filter.mp hi).2]
    have hrr : ∀ i ∈ idx.filter (fun i => !leftOf s rule i), evalAt s i (.branch rule (TreeNode.ofTrain left) (TreeNode.ofTrain right))
        = evalAt s i (TreeNode.ofTrain right) := by
      intro i hi
      have := (List.mem_filter.mp hi).2
      simp only [Bool.not_eq_true'] at this
      simp [evalAt, this]
    rw [← sum_filter_add (leftOf s rule) (fun i => dist.getD i 0 * (s.target.getD i 0 * _)) idx,
      ← sum_filter_add (leftOf s rule) (fun i => dist.getD i 0 * (evalAt s i _ * _)) idx]
    congr 1
    · rw [List.map_congr_left (fun i hi => by rw [hl i hi]), i1]
      exact congrArg List.sum (List.map_congr_left (fun i hi => by rw [hl i hi]))
    · rw [List.map_congr_left (fun i hi => by rw [hrr i hi]), i2]
      exact congrArg List.sum (List.map_congr_left (fun i hi => by rw [hrr i hi]))

/-- C104: the confidences of a trained tree are honest.  For labels ±1 and non-negative weights, every row gets a confidence in [-1, 1],
and for each value `c` the rows with confidence `c` have weighted mean label `c`.  Stated for every function `g` of the confidence (take
the indicator of one value): under the weights, `y` and `conf` have the same correlation with `g (conf)`. -/
theorem tree_calibrated {env : TreeEnv K} (horder : ∀ m, (env.order m).Perm m) {t : DecisionTree K} {s : Sample K} (hs : SampleOk s)
    {dist : List K} (hd : dist.length = s.nSample) (hnn : ∀ d ∈ dist, 0 ≤ d) (hpm : ∀ y ∈ s.target, y = 1 ∨ y = -1)
    {tree : TreeNode K} (h : t.produce env s dist = .ok tree) :
    ∃ conf : Nat → K, (∀ i < s.nSample, tree.confidence s i = .ok (conf i)) ∧
      ∀ g : K → K, ((List.range s.nSample).map fun i => dist.getD i 0 * (s.target.getD i 0 * g (conf i))).sum
        = ((List.range s.nSample).map fun i => dist.getD i 0 * (conf i * g (conf i))).sum := by
  obtain ⟨node, _, hr, hg, rfl⟩ := produce_grown horder hs hd h
  have hlab : ∀ i ∈ trainRows s dist, s.target.getD i 0 = 1 ∨ s.target.getD i 0 = -1 := by
    intro i hi
    have : i < s.target.length := by rw [hs.labels]; exact (hr.2 i hi).1
    rw [List.getD_eq_getElem?_getD, List.getElem?_eq_getElem this]
    exact hpm _ (List.getElem_mem this)
  refine ⟨fun i => evalAt s i (TreeNode.ofTrain node), grown_confidence_all hs node hr.1 hg, fun g => ?_⟩
  have := grown_calibrated g node hr hlab hg
  rw [sum_train hnn, sum_train hnn] at this
  exact this

/-- C104, per answer: the rows answered with `c` have weighted mean label `c`. -/
theorem tree_calibrated_value {env : TreeEnv K} (horder : ∀ m, (env.order m).Perm m) {t : DecisionTree K} {s : Sample K} (hs : SampleOk s)
    {dist : List K} (hd : dist.length = s.nSample) (hnn : ∀ d ∈ dist, 0 ≤ d) (hpm : ∀ y ∈ s.target, y = 1 ∨ y = -1)
    {tree : TreeNode K} (h : t.produce env s dist = .ok tree) :
    ∃ conf : Nat → K, (∀ i < s.nSample, tree.confidence s i = .ok (conf i)) ∧
      ∀ c : K, (((List.range s.nSample).filter fun i => conf i = c).map fun i => dist.getD i 0 * s.target.getD i 0).sum
        = c * (((List.range s.nSample).filter fun i => conf i = c).map fun i => dist.getD i 0).sum := by
  obtain ⟨conf, h1, h2⟩ := tree_calibrated horder hs hd hnn hpm h
  refine ⟨conf, h1, fun c => ?_⟩
  have key : ∀ F : Nat → K, ((List.range s.nSample).map fun i => F i * (if conf i = c then 1 else 0)).sum
      = (((List.range s.nSample).filter fun i => conf i = c).map F).sum := by
    intro F
    generalize List.range s.nSample = l
    induction l with
    | nil => simp
    | cons a l ih =>
      rw [List.map_cons, List.sum_cons, ih, List.filter_cons]
      by_cases hc : conf a = c <;> simp [hc]
  have := h2 (fun x => if x = c then 1 else 0)
  simp only [← mul_assoc] at this
  rw [key (fun i => dist.getD i 0 * s.target.getD i 0), key (fun i => dist.getD i 0 * conf i)] at this
  rw [this, mul_comm c, ← sum_scale]
  exact congrArg List.sum (List.map_congr_left (fun i hi => by
    have := (List.mem_filter.mp hi).2
    simp only [decide_eq_true_eq] at this
    rw [this]))

end generic

variable {env : TreeEnv ℝ} {t : DecisionTree ℝ} {s : Sample ℝ}

theorem weightedError_rows {d : List ℝ} (hd : d.length = s.nSample) (p : Sample ℝ × Nat → Int) :
    Spec.weightedError s.rows d p
      = ((List.range s.nSample).map fun i => if (p (s, i) : ℝ) = s.target.getD i 0 then 0 else d.getD i 0).sum := by
  unfold Spec.weightedError
  congr 1
  apply List.ext_getElem
  · simp [rows_length, hd]
  · intro i h1 h2
    have hi : i < d.length := by simp at h2; omega
    simp [Sample.rows, List.getD_eq_getElem?_getD, hi]

/-- C104 for the weak learner as the boosters see it: the edge is the weighted mean of the squared confidence, and the weighted error of
the predictions is half of one less the weighted mean of the absolute confidence. -/
theorem treeLearner_calibrated (ok : TreesOk env t s) (k : Nat) (d : List ℝ) (hd : d.length = s.nSample) (hp : IsProb d) :
    Spec.edge s.rows d (conf (treeLearner env t s k d))
        = ((List.range s.nSample).map fun i => d.getD i 0 * (conf (treeLearner env t s k d) (s, i) : ℝ) ^ 2).sum ∧
      Spec.weightedError s.rows d (predict (K := ℝ) (treeLearner env t s k d))
        = (1 - ((List.range s.nSample).map fun i => d.getD i 0 * |(conf (treeLearner env t s k d) (s, i) : ℝ)|).sum) / 2 := by
  have ht := ok.train d hd hp
  obtain ⟨tree, h⟩ := tree_training_succeeds ht
  have hl : treeLearner env t s k d = tree := by unfold treeLearner; rw [h]
  obtain ⟨c, hc, hcal⟩ := tree_calibrated ht.order ht.sample hd hp.1 ok.labels h
  have hcc : ∀ i < s.nSample, (conf tree (s, i) : ℝ) = c i := fun i hi => conf_ok (hc i hi)
  rw [hl, edge_rows hd, weightedError_rows hd]
  constructor
  · have := hcal (fun x => x)
    calc _ = ((List.range s.nSample).map fun i => d.getD i 0 * (s.target.getD i 0 * c i)).sum := by
          refine congrArg List.sum (List.map_congr_left fun i hi => ?_)
          rw [hcc i (List.mem_range.1 hi)]; ring
      _ = _ := by
          rw [this]
          refine congrArg List.sum (List.map_congr_left fun i hi => ?_)
          rw [hcc i (List.mem_range.1 hi)]; ring
  · have := hcal (fun x => if 0 ≤ x then 1 else -1)
    have hd1 : ((List.range s.nSample).map fun i => d.getD i 0).sum = 1 := by
      rw [← hp.2]; exact sum_getD_range d _ hd
    have e1 : ((List.range s.nSample).map fun i => if (predict (K := ℝ) tree (s, i) : ℝ) = s.target.getD i 0 then 0 else d.getD i 0).sum
        = (((List.range s.nSample).map fun i => d.getD i 0).sum
          - ((List.range s.nSample).map fun i => d.getD i 0 * (s.target.getD i 0 * (if 0 ≤ c i then 1 else -1))).sum) / 2 := by
      rw [sum_sub_map, ← sum_div_two]
      refine congrArg List.sum (List.map_congr_left fun i hi => ?_)
      have hin := List.mem_range.1 hi
      unfold predict
      rw [hcc i hin]
      have hy : s.target.getD i 0 = 1 ∨ s.target.getD i 0 = -1 := by
        have : i < s.target.length := by rw [ok.sample.labels]; exact hin
        rw [List.getD_eq_getElem?_getD, List.getElem?_eq_getElem this]
        exact ok.labels _ (List.getElem_mem this)
      by_cases h0 : 0 ≤ c i <;> rcases hy with hy | hy <;> rw [hy] <;> simp only [h0, if_true, if_false] <;> norm_num
    rw [e1, hd1, this]
    congr 2
    refine congrArg List.sum (List.map_congr_left fun i hi => ?_)
    rw [hcc i (List.mem_range.1 hi)]
    congr 1
    split
    · rename_i h0; rw [abs_of_nonneg h0, mul_one]
    · rename_i h0; rw [abs_of_neg (not_le.1 h0)]; ring

/-- Hence on every distribution the predictions of the tree are at least as good as its confidences. -/
theorem treeLearner_error (ok : TreesOk env t s) (k : Nat) (d : List ℝ) (hd : d.length = s.nSample) (hp : IsProb d) :
    Spec.weightedError s.rows d (predict (K := ℝ) (treeLearner env t s k d))
      ≤ (1 - Spec.edge s.rows d (conf (treeLearner env t s k d))) / 2 := by
  obtain ⟨h1, h2⟩ := treeLearner_calibrated ok k d hd hp
  rw [h1, h2]
  have : ((List.range s.nSample).map fun i => d.getD i 0 * (conf (treeLearner env t s k d) (s, i) : ℝ) ^ 2).sum
      ≤ ((List.range s.nSample).map fun i => d.getD i 0 * |(conf (treeLearner env t s k d) (s, i) : ℝ)|).sum := by
    apply List.sum_le_sum
    intro i _
    apply mul_le_mul_of_nonneg_left _ (getD_nonneg hp.1 i)
    have := treeLearner_range env t s k d (s, i)
    rw [← sq_abs]
    nlinarith [abs_nonneg (conf (treeLearner env t s k d) (s, i) : ℝ)]
  linarith

/-- A sample, an environment and trees that meet the hypotheses. -/
example (k : Nat) : Spec.weightedError exRealSample.rows (List.replicate 4 (1 / 4)) (predict (K := ℝ) (treeLearner exRealEnv (exRealTree .gini) exRealSample k (List.replicate 4 (1 / 4))))
    ≤ (1 - Spec.edge exRealSample.rows (List.replicate 4 (1 / 4)) (conf (treeLearner exRealEnv (exRealTree .gini) exRealSample k (List.replicate 4 (1 / 4))))) / 2 :=
  treeLearner_error (exReal_ok _) k _ (by simp [exRealSample]) ⟨by intro p hp; rw [List.eq_of_mem_replicate hp]; norm_num, by norm_num⟩

end Miniboosts.Props
