import Verif.Spec.OtherSample
import Verif.Props.FileBoost
import Verif.Props.NaiveBayes
import Verif.Model.NeuralNetwork
import Verif.Model.RegressionTree

/-! # C98: predictions on other samples -/

namespace Miniboosts.Props

open Miniboosts Spec

set_option linter.unusedSectionVars false

section tree

variable {K : Type*} [Field K] [LinearOrder K] [IsStrictOrderedRing K]

theorem valueAt_mem {s : Sample K} (hs : SampleOk s) {f : Feature K} (hf : f ∈ s.features) (i : Nat) :
    valueAt s i f.name = some (f.val i) := by
  unfold valueAt
  cases h : s.features.find? fun g => g.name = f.name with
  | none =>
    have := List.find?_eq_none.1 h f hf
    simp at this
  | some g =>
    have h1 := List.find?_some h
    have h2 := List.mem_of_find?_eq_some h
    simp only [decide_eq_true_eq] at h1
    have := List.inj_on_of_nodup_map hs.names h2 hf h1
    rw [this]; rfl

theorem valueAt_none {s : Sample K} {nm : String} (h : nm ∉ s.features.map Feature.name) (i : Nat) : valueAt s i nm = none := by
  unfold valueAt
  rw [List.find?_eq_none.2]
  · rfl
  · intro f hf
    simp only [decide_eq_true_eq]
    rintro rfl
    exact h (List.mem_map_of_mem hf)

theorem index_val {n : Nat} {f : Feature K} (hf : ColumnOk n f) {i : Nat} (hi : i < n) : f.index i = .ok (f.val i) := by
  cases f with
  | dense f =>
    have : f.sample.length = n := hf
    simp only [Feature.index, DenseFeature.index, Feature.val]
    rw [List.getElem?_eq_getElem (by omega), List.getD_eq_getElem?_getD, List.getElem?_eq_getElem (by omega)]
    rfl
  | sparse f => rfl

/-- The answer of a tree, decision or regression, trained or not, for a row of any sample: the value of the tree at the named values of
the row, and a panic exactly when a test on the way asks for a column that the sample does not have. -/
theorem tree_answer_by_name {s : Sample K} (hs : SampleOk s) {i : Nat} (hi : i < s.nSample) (t : TreeNode K) :
    t.confidence s i = match treeValue (valueAt s i) t with
      | some c => .ok c
      | none => .error .unwrapNone := by
  induction t with
  | leaf c => rfl
  | branch rule left right ihl ihr =>
    unfold TreeNode.confidence treeValue Splitter.goesLeft
    by_cases h : rule.feature ∈ s.features.map Feature.name
    · obtain ⟨f, hf, e⟩ := List.mem_map.1 h
      rw [← e, Sample.byName_ok hs.names hs.table hf, valueAt_mem hs hf]
      simp only [index_val (hs.columns f hf) hi, Except.map]
      by_cases hlt : f.val i < rule.threshold
      · simp only [hlt, decide_true, if_true, ihl]
      · simp only [hlt, decide_false, if_false, ihr]
    · rw [Sample.byName_missing hs.table h, valueAt_none h]

theorem treeValue_congr {x x' : String → Option K} (t : TreeNode K) (h : ∀ nm ∈ tested t, x nm = x' nm) : treeValue x t = treeValue x' t := by
  induction t with
  | leaf c => rfl
  | branch rule left right ihl ihr =>
    unfold treeValue
    rw [h _ (by simp [tested]), ihl fun nm hn => h nm (by simp [tested, hn]), ihr fun nm hn => h nm (by simp [tested, hn])]

theorem treeValue_some {x : String → Option K} (t : TreeNode K) (h : ∀ nm ∈ tested t, (x nm).isSome) : ∃ c, treeValue x t = some c := by
  induction t with
  | leaf c => exact ⟨c, rfl⟩
  | branch rule left right ihl ihr =>
    obtain ⟨v, hv⟩ := Option.isSome_iff_exists.1 (h rule.feature (by simp [tested]))
    unfold treeValue
    rw [hv]
    simp only
    split
    · exact ihl fun nm hn => h nm (by simp [tested, hn])
    · exact ihr fun nm hn => h nm (by simp [tested, hn])

/-- **C98** for trees: rows of two samples with the same values in the columns that the tree tests, found by their names, get the same answer;
the order of the columns, how they are stored, further columns and the other rows do not matter. -/
theorem tree_same_answer {s s' : Sample K} (hs : SampleOk s) (hs' : SampleOk s') {i i' : Nat} (hi : i < s.nSample) (hi' : i' < s'.nSample)
    (t : TreeNode K) (h : ∀ nm ∈ tested t, valueAt s i nm = valueAt s' i' nm) : t.confidence s i = t.confidence s' i' := by
  rw [tree_answer_by_name hs hi, tree_answer_by_name hs' hi', treeValue_congr t h]

/-- A tree answers every row of every sample that has the columns it tests. -/
theorem tree_answers_elsewhere {s : Sample K} (hs : SampleOk s) {i : Nat} (hi : i < s.nSample) (t : TreeNode K)
    (h : ∀ nm ∈ tested t, nm ∈ s.features.map Feature.name) : ∃ c, t.confidence s i = .ok c := by
  obtain ⟨c, hc⟩ := treeValue_some (x := valueAt s i) t (by
    intro nm hn
    obtain ⟨f, hf, rfl⟩ := List.mem_map.1 (h nm hn)
    rw [valueAt_mem hs hf]; rfl)
  exact ⟨c, by rw [tree_answer_by_name hs hi, hc]⟩

/-- The names in a node under construction. -/
def trainTested : TrainNode K → List String
  | .leaf .. => []
  | .branch rule left right _ _ _ _ => rule.feature :: (trainTested left ++ trainTested right)

theorem tested_ofTrain (n : TrainNode K) : tested (TreeNode.ofTrain n) = trainTested n := by
  induction n with
  | leaf => rfl
  | branch rule left right c w l k ihl ihr => simp only [TreeNode.ofTrain, tested, trainTested, ihl, ihr]

theorem trainTested_prune (n : TrainNode K) : trainTested n.removeRedundant ⊆ trainTested n := by
  induction n with
  | leaf => exact fun _ h => h
  | branch rule left right c w l k ihl ihr =>
    unfold TrainNode.removeRedundant
    split
    · simp only [trainTested]
      exact List.cons_subset_cons _ (List.append_subset.2 ⟨fun _ h => List.mem_append_left _ (ihl h), fun _ h => List.mem_append_right _ h⟩)
    split
    · simp only [trainTested]
      exact List.cons_subset_cons _ (List.append_subset.2 ⟨fun _ h => List.mem_append_left _ h, fun _ h => List.mem_append_right _ (ihr h)⟩)
    split
    · simp [trainTested]
    · simp only [trainTested]
      exact List.cons_subset_cons _ (List.append_subset.2 ⟨fun _ h => List.mem_append_left _ (ihl h), fun _ h => List.mem_append_right _ (ihr h)⟩)

theorem splitRows_known {s : Sample K} (hs : SampleOk s) {rule : Splitter K} {idx l r : List Nat}
    (h : DecisionTree.splitRows rule s idx = .ok (l, r)) (hl : l ≠ []) : rule.feature ∈ s.features.map Feature.name := by
  by_contra hc
  cases idx with
  | nil =>
    simp only [DecisionTree.splitRows, Except.ok.injEq, Prod.mk.injEq] at h
    exact hl h.1.symm
  | cons i is =>
    simp only [DecisionTree.splitRows, Splitter.goesLeft, Sample.byName_missing hs.table hc] at h
    cases h

theorem fullTree_known [FloorRing K] {env : TreeEnv K} {t : DecisionTree K} {s : Sample K} (hs : SampleOk s) {dist : List K} (depth : Nat) :
    ∀ {idx : List Nat} {n : TrainNode K}, DecisionTree.fullTree env t s dist depth idx = .ok n →
      trainTested n ⊆ s.features.map Feature.name := by
  induction depth with
  | zero =>
    intro idx n h
    unfold DecisionTree.fullTree at h
    split at h
    · cases h
    split at h
    · cases h
    · injection h with h
      rw [← h]; simp [trainTested]
  | succ depth ih =>
    intro idx n h
    unfold DecisionTree.fullTree at h
    split at h
    · cases h
    split at h
    · cases h
    simp only at h
    split at h
    · injection h with h
      rw [← h]; simp [trainTested]
    split at h
    · cases h
    split at h
    · cases h
    rename_i hsp
    split at h
    · injection h with h
      rw [← h]; simp [trainTested]
    rename_i hne
    split at h
    · cases h
    rename_i hl
    split at h
    · cases h
    rename_i hr
    injection h with h
    rw [← h]
    push Not at hne
    simp only [TrainNode.mkBranch, trainTested]
    intro nm hn
    rcases List.mem_cons.1 hn with rfl | hn
    · exact splitRows_known hs hsp hne.1
    · rcases List.mem_append.1 hn with hn | hn
      · exact ih hl hn
      · exact ih hr hn

/-- A trained decision tree tests columns of its training sample only. -/
theorem decision_tree_tests_known [FloorRing K] {env : TreeEnv K} {t : DecisionTree K} {s : Sample K} (hs : SampleOk s) {dist : List K}
    {tree : TreeNode K} (h : t.produce env s dist = .ok tree) : tested tree ⊆ s.features.map Feature.name := by
  unfold DecisionTree.produce at h
  split at h
  · cases h
  split at h
  · cases h
  split at h
  · cases h
  rename_i hf
  injection h with h
  rw [← h, tested_ofTrain]
  exact fun _ h => fullTree_known hs _ hf (trainTested_prune _ h)

theorem regTree_known {env : TreeEnv K} {t : RegressionTree K} {s : Sample K} (hs : SampleOk s) {g h : List K} (depth : Nat) :
    ∀ {idx : List Nat} {n : RegTrainNode K}, RegressionTree.fullTree env t s g h depth idx = .ok n →
      tested n.toNode ⊆ s.features.map Feature.name := by
  induction depth with
  | zero =>
    intro idx n h
    unfold RegressionTree.fullTree at h
    split at h
    · cases h
    · injection h with h
      rw [← h]; simp [RegTrainNode.toNode, tested]
  | succ depth ih =>
    intro idx n h
    unfold RegressionTree.fullTree at h
    split at h
    · cases h
    simp only at h
    split at h
    · injection h with h
      rw [← h]; simp [RegTrainNode.toNode, tested]
    split at h
    · cases h
    split at h
    · cases h
    rename_i hsp
    split at h
    · injection h with h
      rw [← h]; simp [RegTrainNode.toNode, tested]
    rename_i hne
    split at h
    · cases h
    rename_i hl
    split at h
    · cases h
    rename_i hr
    injection h with h
    rw [← h]
    push Not at hne
    simp only [RegTrainNode.mkBranch, RegTrainNode.toNode, tested]
    intro nm hn
    rcases List.mem_cons.1 hn with rfl | hn
    · exact splitRows_known hs hsp hne.1
    · rcases List.mem_append.1 hn with hn | hn
      · exact ih hl hn
      · exact ih hr hn

/-- A trained regression tree tests columns of its training sample only. -/
theorem regression_tree_tests_known {env : TreeEnv K} {t : RegressionTree K} {s : Sample K} (hs : SampleOk s) {predictions : List K}
    {tree : TreeNode K} (h : t.produce env s predictions = .ok tree) : tested tree ⊆ s.features.map Feature.name := by
  unfold RegressionTree.produce at h
  split at h
  · cases h
  split at h
  · cases h
  rename_i gr _ _ hess _
  cases hf : RegressionTree.fullTree env t s gr hess t.maxDepth (List.range t.nSample) with
  | error e => rw [hf] at h; cases h
  | ok n =>
    rw [hf] at h
    simp only [Except.map, Except.ok.injEq] at h
    rw [← h]
    exact regTree_known hs _ hf

/-- **C98**: a decision tree trained on one sample answers every row of every other sample that has the training sample's columns, in any order
and among others. -/
theorem decision_tree_answers_elsewhere [FloorRing K] {env : TreeEnv K} {t : DecisionTree K} {s s' : Sample K} (hs : SampleOk s)
    (hs' : SampleOk s') (hcol : s.features.map Feature.name ⊆ s'.features.map Feature.name) {dist : List K} {tree : TreeNode K}
    (h : t.produce env s dist = .ok tree) {i : Nat} (hi : i < s'.nSample) : ∃ c, tree.confidence s' i = .ok c :=
  tree_answers_elsewhere hs' hi tree fun _ hn => hcol (decision_tree_tests_known hs h hn)

/-- The same for regression trees. -/
theorem regression_tree_answers_elsewhere {env : TreeEnv K} {t : RegressionTree K} {s s' : Sample K} (hs : SampleOk s) (hs' : SampleOk s')
    (hcol : s.features.map Feature.name ⊆ s'.features.map Feature.name) {predictions : List K} {tree : TreeNode K}
    (h : t.produce env s predictions = .ok tree) {i : Nat} (hi : i < s'.nSample) : ∃ c, tree.confidence s' i = .ok c :=
  tree_answers_elsewhere hs' hi tree fun _ hn => hcol (regression_tree_tests_known hs h hn)

/-- A vote of trees depends on the named values of the row only. -/
theorem vote_same_answer {s s' : Sample K} (hs : SampleOk s) (hs' : SampleOk s') {i i' : Nat} (hi : i < s.nSample) (hi' : i' < s'.nSample)
    (f : WeightedMajority K (TreeNode K)) (h : ∀ t ∈ f.hypotheses, ∀ nm ∈ tested t, valueAt s i nm = valueAt s' i' nm) :
    (conf (K := K) f (s, i) : K) = conf f (s', i') := by
  show weightedConf f.weights f.hypotheses (s, i) = weightedConf f.weights f.hypotheses (s', i')
  unfold weightedConf
  congr 1
  have key : ∀ (ws : List K) (hs₁ : List (TreeNode K)), (∀ t ∈ hs₁, ∀ nm ∈ tested t, valueAt s i nm = valueAt s' i' nm) →
      List.zipWith (fun w h => w * conf h (s, i)) ws hs₁ = List.zipWith (fun w h => w * conf h (s', i')) ws hs₁ := by
    intro ws
    induction ws with
    | nil => intro _ _; rfl
    | cons w ws ih =>
      intro hs₁ h
      cases hs₁ with
      | nil => rfl
      | cons t hs₁ =>
        simp only [List.zipWith_cons_cons]
        rw [ih hs₁ fun t ht => h t (List.mem_cons_of_mem _ ht)]
        congr 2
        show orZero _ = orZero _
        rw [tree_same_answer hs hs' hi hi' t (h t (by simp))]
  exact key _ _ h

end tree

section run

variable {env : TreeEnv ℝ} {s : Sample ℝ}

theorem treeLearner_known (hs : SampleOk s) (t : DecisionTree ℝ) (n : Nat) (d : List ℝ) :
    tested (treeLearner env t s n d) ⊆ s.features.map Feature.name := by
  unfold treeLearner
  split
  · rename_i h
    exact decision_tree_tests_known hs h
  · simp [tested]

theorem adaboost_hypotheses_from {H X : Type*} [Classifier H X ℝ] {S : Examples X ℝ} {wl : WeakLearner ℝ H} {s₀ : AdaBoost H}
    {n : Nat} {qs : List (List ℝ)} {st : AdaBoost H} (hr : (AdaBoost.booster S).Reachable wl s₀ n qs st) :
    ∀ h ∈ st.hypotheses, ∃ k d, h = wl k d := by
  induction hr with
  | start h =>
    simp only [AdaBoost.booster, AdaBoost.preprocess] at h
    split at h
    · cases h
    · injection h with h
      rw [← h]; simp
  | @step n qs s₁ out hr hb hf ih =>
    simp only [AdaBoost.booster, AdaBoost.boost] at hb
    split at hb
    · injection hb with hb
      rw [← hb] at hf; cases hf
    split at hb
    · injection hb with hb
      rw [← hb] at hf; cases hf
    split at hb
    · cases hb
    · injection hb with hb
      rw [← hb]
      intro h hh
      rcases List.mem_append.1 hh with hh | hh
      · exact ih h hh
      · exact ⟨_, _, List.mem_singleton.1 hh⟩

theorem adaboost_vote_from {H X : Type*} [Classifier H X ℝ] {S : Examples X ℝ} {wl : WeakLearner ℝ H} {s₀ : AdaBoost H} {n : Nat}
    {f : WeightedMajority ℝ H} {qs : List (List ℝ)} (h : (AdaBoost.booster S).run wl n s₀ = some (.ok (f, qs))) :
    ∀ h ∈ f.hypotheses, ∃ k d, h = wl k d := by
  obtain ⟨m, qs', st, out, k, hr, -, hb, hf, -, hp⟩ := (AdaBoost.booster S).run_spec wl s₀ h
  have hin := adaboost_hypotheses_from hr
  have hout : ∀ h ∈ out.state.hypotheses, ∃ k d, h = wl k d := by
    simp only [AdaBoost.booster, AdaBoost.boost] at hb
    split at hb
    · injection hb with hb
      rw [← hb]; exact hin
    split at hb
    · injection hb with hb
      rw [← hb]
      intro h hh
      exact ⟨_, _, List.mem_singleton.1 hh⟩
    split at hb
    · cases hb
    · injection hb with hb
      rw [← hb] at hf; cases hf
  intro g hg
  rcases fromSlices_cases out.state.weights out.state.hypotheses with ⟨-, e⟩ | ⟨-, e⟩
  · have : (AdaBoost.booster S).postprocess out.state = WeightedMajority.fromSlices out.state.weights out.state.hypotheses := rfl
    rw [this, e] at hp; cases hp
  · have : (AdaBoost.booster S).postprocess out.state = WeightedMajority.fromSlices out.state.weights out.state.hypotheses := rfl
    rw [this, e] at hp
    injection hp with hp
    rw [← hp] at hg
    obtain ⟨p, hp', rfl⟩ := List.mem_map.1 hg
    exact hout _ (List.of_mem_zip (List.mem_of_mem_filter hp')).2

/-- **C98** for AdaBoost on decision trees: the returned classifier gives the same confidence and the same prediction to rows, of whatever samples,
that agree by name on the columns of the training sample. -/
theorem adaboost_trees_by_name (hs : SampleOk s) (t : DecisionTree ℝ) {s₀ : AdaBoost (TreeNode ℝ)} {n : Nat}
    {f : WeightedMajority ℝ (TreeNode ℝ)} {qs : List (List ℝ)}
    (h : (AdaBoost.booster s.rows).run (treeLearner env t s) n s₀ = some (.ok (f, qs))) {s₁ s₂ : Sample ℝ} (h1 : SampleOk s₁)
    (h2 : SampleOk s₂) {i j : Nat} (hi : i < s₁.nSample) (hj : j < s₂.nSample)
    (heq : ∀ nm ∈ s.features.map Feature.name, valueAt s₁ i nm = valueAt s₂ j nm) :
    (conf (K := ℝ) f (s₁, i) : ℝ) = conf f (s₂, j) ∧ (predict (K := ℝ) f (s₁, i)) = predict (K := ℝ) f (s₂, j) := by
  have := vote_same_answer h1 h2 hi hj f (by
    intro g hg nm hn
    obtain ⟨k, d, rfl⟩ := adaboost_vote_from h g hg
    exact heq nm (treeLearner_known hs t k d hn))
  refine ⟨this, ?_⟩
  unfold predict
  rw [this]

theorem readsAs_valueAt {names : List String} {t : String} {vals : List (List ℝ)} (hn : names.Nodup) (h : ReadsAs s names t vals) {nm : String}
    (hnm : nm ∈ names.erase t) {i : Nat} (hi : i < vals.length) : valueAt s i nm = some (cell names vals[i] nm) := by
  rw [← h.columnNames] at hnm
  obtain ⟨f, hf, rfl⟩ := List.mem_map.1 hnm
  rw [valueAt_mem h.ok hf, readsAs_val hn h hf hi]

/-- **C98** for csv files: train on one file and predict the rows of two others, whose columns may come in other orders and which may have further
columns; rows with the same cells under the training columns' names get the same prediction. -/
theorem csv_prediction_by_name {names names₁ names₂ : List String} {y y₁ y₂ : String} {vals vals₁ vals₂ : List (List ℝ)}
    {s₁ s₂ : Sample ℝ} (hn1 : names₁.Nodup) (hn2 : names₂.Nodup) (hs : ReadsAs s names y vals) (h1 : ReadsAs s₁ names₁ y₁ vals₁)
    (h2 : ReadsAs s₂ names₂ y₂ vals₂) (hc1 : names.erase y ⊆ names₁.erase y₁) (hc2 : names.erase y ⊆ names₂.erase y₂)
    (t : DecisionTree ℝ) {s₀ : AdaBoost (TreeNode ℝ)} {n : Nat} {f : WeightedMajority ℝ (TreeNode ℝ)} {qs : List (List ℝ)}
    (h : (AdaBoost.booster s.rows).run (treeLearner env t s) n s₀ = some (.ok (f, qs))) {i j : Nat} (hi : i < vals₁.length)
    (hj : j < vals₂.length) (heq : ∀ nm ∈ names.erase y, cell names₁ vals₁[i] nm = cell names₂ vals₂[j] nm) :
    (predict (K := ℝ) f (s₁, i)) = predict (K := ℝ) f (s₂, j) := by
  have e1 : s₁.nSample = vals₁.length := congrArg Prod.fst h1.shape
  have e2 : s₂.nSample = vals₂.length := congrArg Prod.fst h2.shape
  refine (adaboost_trees_by_name hs.ok t h h1.ok h2.ok (by omega) (by omega) ?_).2
  intro nm hnm
  rw [hs.columnNames] at hnm
  rw [readsAs_valueAt hn1 h1 (hc1 hnm) hi, readsAs_valueAt hn2 h2 (hc2 hnm) hj, heq nm hnm]

end run

section positional

theorem row_of_same_columns {s s' : Sample ℝ} (hs : SampleOk s) (hs' : SampleOk s') (hc : SameColumns s s') {i i' : Nat} (hi : i < s.nSample)
    (hi' : i' < s'.nSample) (h : ∀ nm, valueAt s i nm = valueAt s' i' nm) :
    List.Forall₂ (fun f f' => f.index i = f'.index i') s.features s'.features := by
  rw [List.forall₂_iff_get]
  have hl : s.features.length = s'.features.length := by
    have := congrArg List.length hc
    simpa using this
  refine ⟨hl, fun k hk hk' => ?_⟩
  have hname : s.features[k].name = s'.features[k].name := by
    have := List.getElem_of_eq hc (i := k) (by simpa using hk)
    simpa using this
  have h1 := valueAt_mem hs (List.getElem_mem hk) i
  have h2 := valueAt_mem hs' (List.getElem_mem hk') i'
  rw [hname, h, h2] at h1
  injection h1 with h1
  simp only [List.get_eq_getElem]
  rw [index_val (hs.columns _ (List.getElem_mem hk)) hi, index_val (hs'.columns _ (List.getElem_mem hk')) hi', h1]

theorem nonConst_congr {i i' n : Nat} {fs fs' : List (Feature ℝ)} (h : List.Forall₂ (fun f f' => f.index i = f'.index i') fs fs') :
    ∀ ps : List (ℝ × ℝ), Gaussian.nonConst n i (ps.zip fs) = Gaussian.nonConst n i' (ps.zip fs') := by
  induction h with
  | nil => intro ps; cases ps <;> rfl
  | cons hx _ ih =>
    intro ps
    cases ps with
    | nil => rfl
    | cons p ps =>
      obtain ⟨a, b⟩ := p
      simp only [List.zip_cons_cons, Gaussian.nonConst, hx, ih ps]

/-- **C98** for naive Bayes, partly: the answer is the same for rows that agree by name, provided the two samples list the columns in the same
order. -/
theorem nb_same_answer_partial {s s' : Sample ℝ} (hs : SampleOk s) (hs' : SampleOk s') (hc : SameColumns s s') {i i' : Nat}
    (hi : i < s.nSample) (hi' : i' < s'.nSample) (h : ∀ nm, valueAt s i nm = valueAt s' i' nm) (f : NBayesClassifier) :
    f.confidence s i = f.confidence s' i' := by
  have hrow := row_of_same_columns hs hs' hc hi hi' h
  have hlog : ∀ g : Gaussian, g.logProbability s i = g.logProbability s' i' := by
    intro g
    unfold Gaussian.logProbability
    rw [nonConst_congr hrow]
  have hpr : ∀ (la : Option ℝ) (l : List (ℝ × ℝ × Gaussian)), NBayesClassifier.probs s i la l = NBayesClassifier.probs s' i' la l := by
    intro la l
    induction l with
    | nil => rfl
    | cons p l ih =>
      obtain ⟨y, pr, d⟩ := p
      simp only [NBayesClassifier.probs, hlog, ih]
  unfold NBayesClassifier.confidence NBayesClassifier.probabilities
  simp only [hlog, hpr]

theorem mapAll_congr {i i' : Nat} {fs fs' : List (Feature ℝ)} (h : List.Forall₂ (fun f f' => f.index i = f'.index i') fs fs') :
    Sample.mapAll (fun f => f.index i) fs = Sample.mapAll (fun f => f.index i') fs' := by
  induction h with
  | nil => rfl
  | cons hx _ ih => simp only [Sample.mapAll, hx, ih]

/-- **C98** for neural networks, partly: as for naive Bayes; the label of the row does not matter. -/
theorem nn_same_answer_partial {s s' : Sample ℝ} (hs : SampleOk s) (hs' : SampleOk s') (hc : SameColumns s s') {i i' : Nat}
    (hi : i < s.nSample) (hi' : i' < s'.nSample) (h : ∀ nm, valueAt s i nm = valueAt s' i' nm) (f : NNHypothesis) :
    f.confidence s i = f.confidence s' i' ∧ f.predictReg s i = f.predictReg s' i' := by
  have hrow := mapAll_congr (row_of_same_columns hs hs' hc hi hi' h)
  have h1 : s.target[i]? = some (s.target[i]'(by rw [hs.labels]; exact hi)) := List.getElem?_eq_getElem _
  have h2 : s'.target[i']? = some (s'.target[i']'(by rw [hs'.labels]; exact hi')) := List.getElem?_eq_getElem _
  unfold NNHypothesis.confidence NNHypothesis.predictReg Sample.at'
  rw [hrow, h1, h2]
  cases Sample.mapAll (fun f => f.index i') s'.features <;> exact ⟨rfl, rfl⟩

end positional

/-! ## False for naive Bayes and for neural networks: they read the columns by position -/

/-- One row with `a = 1` and `b = 0`, columns listed as `a, b`. -/
def exRowAB : Sample ℝ :=
  { nameToIndex := [("a", 0), ("b", 1)], features := [.dense ⟨"a", [1]⟩, .dense ⟨"b", [0]⟩], target := [1], nSample := 1, nFeature := 2 }

/-- The same row, columns listed as `b, a`. -/
def exRowBA : Sample ℝ :=
  { nameToIndex := [("b", 0), ("a", 1)], features := [.dense ⟨"b", [0]⟩, .dense ⟨"a", [1]⟩], target := [1], nSample := 1, nFeature := 2 }

/-- The same row with a sparse column and a further column. -/
def exRowSparse : Sample ℝ :=
  { nameToIndex := [("c", 0), ("b", 1), ("a", 2)], features := [.dense ⟨"c", [7]⟩, .sparse ⟨"b", [], 1⟩, .sparse ⟨"a", [(0, 1)], 1⟩], target := [-1], nSample := 1, nFeature := 3 }

theorem exRowAB_ok : SampleOk exRowAB := by
  refine ⟨rfl, by simp [exRowAB, Feature.name], by simp [exRowAB, Feature.name], ?_, rfl⟩
  intro f hf
  simp only [exRowAB, List.mem_cons, List.not_mem_nil, or_false] at hf
  rcases hf with rfl | rfl <;> rfl

theorem exRowBA_ok : SampleOk exRowBA := by
  refine ⟨rfl, by simp [exRowBA, Feature.name], by simp [exRowBA, Feature.name], ?_, rfl⟩
  intro f hf
  simp only [exRowBA, List.mem_cons, List.not_mem_nil, or_false] at hf
  rcases hf with rfl | rfl <;> rfl

theorem exRowSparse_ok : SampleOk exRowSparse := by
  refine ⟨rfl, by simp [exRowSparse, Feature.name], by simp [exRowSparse, Feature.name], ?_, rfl⟩
  intro f hf
  simp only [exRowSparse, List.mem_cons, List.not_mem_nil, or_false] at hf
  rcases hf with rfl | rfl | rfl
  · rfl
  · exact ⟨rfl, by simp, by simp⟩
  · exact ⟨rfl, by simp, by simp [exRowSparse]⟩

theorem exRows_same (nm : String) : valueAt exRowAB 0 nm = valueAt exRowBA 0 nm := by
  by_cases ha : nm = "a"
  · subst ha; simp [valueAt, exRowAB, exRowBA, Feature.name, Feature.val]
  by_cases hb : nm = "b"
  · subst hb; simp [valueAt, exRowAB, exRowBA, Feature.name, Feature.val]
  · rw [valueAt_none (by simp [exRowAB, Feature.name, ha, hb]), valueAt_none (by simp [exRowBA, Feature.name, ha, hb])]

theorem exRows_sparse (nm : String) (h : nm = "a" ∨ nm = "b") : valueAt exRowAB 0 nm = valueAt exRowSparse 0 nm := by
  rcases h with rfl | rfl
  · simp [valueAt, exRowAB, exRowSparse, Feature.name, Feature.val]
    rfl
  · simp [valueAt, exRowAB, exRowSparse, Feature.name, Feature.val]
    rfl

/-- The tree `a < 1/2`. -/
noncomputable def exTreeA : TreeNode ℝ := .branch ⟨"a", 1 / 2⟩ (.leaf (-1)) (.leaf 1)

/-- Non-vacuity of `tree_same_answer` and `tree_answers_elsewhere`: dense against sparse columns, another order, a further column, another label. -/
example : SampleOk exRowAB ∧ SampleOk exRowSparse ∧ (∀ nm ∈ tested exTreeA, valueAt exRowAB 0 nm = valueAt exRowSparse 0 nm) ∧
    (∀ nm ∈ tested exTreeA, nm ∈ exRowSparse.features.map Feature.name) := by
  refine ⟨exRowAB_ok, exRowSparse_ok, fun nm hn => exRows_sparse nm (.inl ?_), fun nm hn => ?_⟩
  · simpa [tested, exTreeA] using hn
  · have : nm = "a" := by simpa [tested, exTreeA] using hn
    subst this; simp [exRowSparse, Feature.name]

/-- A tree asked about a sample without its column panics. -/
example : (exTreeA).confidence { exRowAB with nameToIndex := [("b", 0)], features := [.dense ⟨"b", [0]⟩], nFeature := 1 } 0 = .error .unwrapNone := rfl

/-- Two columns with means `(1, 0)` under label `1` and `(0, 1)` under label `-1`, all variances one. -/
def exPosSample : Sample ℝ :=
  { nameToIndex := [("a", 0), ("b", 1)], features := [.dense ⟨"a", [2, 0, 1, -1]⟩, .dense ⟨"b", [1, -1, 2, 0]⟩], target := [1, 1, -1, -1], nSample := 4, nFeature := 2 }

/-- The uniform distribution. -/
noncomputable def exPosDist : List ℝ := [1 / 4, 1 / 4, 1 / 4, 1 / 4]

theorem exPos_values (y : ℝ) (hy : y = 1 ∨ y = -1) :
    labelMass [1, 1, -1, -1] exPosDist y = 1 / 2 ∧
    condMean [1, 1, -1, -1] exPosDist y [2, 0, 1, -1] = (if y = 1 then 1 else 0) ∧
    condMean [1, 1, -1, -1] exPosDist y [1, -1, 2, 0] = (if y = 1 then 0 else 1) ∧
    condVar [1, 1, -1, -1] exPosDist y [2, 0, 1, -1] = 1 ∧ condVar [1, 1, -1, -1] exPosDist y [1, -1, 2, 0] = 1 := by
  have hm : labelMass [1, 1, -1, -1] exPosDist y = 1 / 2 := by
    rcases hy with rfl | rfl <;> simp [labelMass, exPosDist, Finset.sum_range_succ] <;> norm_num
  have hc : condMean [1, 1, -1, -1] exPosDist y [2, 0, 1, -1] = (if y = 1 then 1 else 0) := by
    rw [condMean, hm]
    rcases hy with rfl | rfl <;> simp [exPosDist, Finset.sum_range_succ] <;> norm_num
  have hc' : condMean [1, 1, -1, -1] exPosDist y [1, -1, 2, 0] = (if y = 1 then 0 else 1) := by
    rw [condMean, hm]
    rcases hy with rfl | rfl <;> simp [exPosDist, Finset.sum_range_succ] <;> norm_num
  refine ⟨hm, hc, hc', ?_, ?_⟩
  · rw [condVar, hc, hm]
    rcases hy with rfl | rfl <;> simp [exPosDist, Finset.sum_range_succ] <;> norm_num
  · rw [condVar, hc', hm]
    rcases hy with rfl | rfl <;> simp [exPosDist, Finset.sum_range_succ] <;> norm_num

/-- **False for naive Bayes**: trained on the columns `a, b`, the classifier answers `1` for the row `a = 1, b = 0` when the sample lists its columns
as `a, b` and `-1` for the very same row when the sample lists them as `b, a`. -/
theorem nb_answers_by_position :
    ∃ f, GaussianNB.produce exPosSample exPosDist = .ok f ∧ (∀ nm, valueAt exRowAB 0 nm = valueAt exRowBA 0 nm) ∧
      f.confidence exRowAB 0 = .ok 1 ∧ f.confidence exRowBA 0 = .ok (-1) := by
  have hlabel : ∀ y ∈ ([1, 1, -1, -1] : List ℝ), y = 1 ∨ y = -1 := by
    intro y hy
    simpa using hy
  have hd : DenseSample exPosSample [[2, 0, 1, -1], [1, -1, 2, 0]] [1, 1, -1, -1] := ⟨rfl, .cons ⟨_, rfl⟩ (.cons ⟨_, rfl⟩ .nil), by simp⟩
  have hp : IsProb exPosDist := by
    constructor
    · intro p hp
      simp only [exPosDist, List.mem_cons, List.not_mem_nil, or_false] at hp
      rcases hp with rfl | rfl | rfl | rfl <;> norm_num
    · simp [exPosDist]; norm_num
  obtain ⟨f, h3, h4⟩ := nb_equal_variances_partial hd (by simp) exPosDist rfl hp (by
      intro y hy x hx
      simp only [List.mem_cons, List.not_mem_nil, or_false] at hx
      obtain ⟨-, -, -, v1, v2⟩ := exPos_values y (hlabel y hy)
      rcases hx with rfl | rfl
      · rw [v1]; exact one_pos
      · rw [v2]; exact one_pos) (by
      intro y hy u hu
      obtain ⟨-, -, -, v1, v2⟩ := exPos_values y (hlabel y hy)
      obtain ⟨-, -, -, v3, v4⟩ := exPos_values u (hlabel u hu)
      simp only [List.map_cons, List.map_nil, v1, v2, v3, v4])
  have hsc : ∀ (y p q : ℝ), y = 1 ∨ y = -1 → bayesScore [[2, 0, 1, -1], [1, -1, 2, 0]] [1, 1, -1, -1] exPosDist [p, q] y =
      1 / 2 / (√(2 * Real.pi) * √(2 * Real.pi)) * Real.exp (-(p - if y = 1 then 1 else 0) ^ 2 / 2 + -(q - if y = 1 then 0 else 1) ^ 2 / 2) := by
    intro y p q hy
    obtain ⟨m, c1, c2, v1, v2⟩ := exPos_values y hy
    simp only [bayesScore, List.zipWith_cons_cons, List.zipWith_nil_right, List.prod_cons, List.prod_nil, m, c1, c2, v1, v2, normalDensity, mul_one,
      Real.exp_add]
    ring
  have hpos : 0 < 1 / 2 / (√(2 * Real.pi) * √(2 * Real.pi)) := by positivity
  have key : ∀ (p q y : ℝ), y ∈ ([1, 1, -1, -1] : List ℝ) →
      (∀ u ∈ ([1, 1, -1, -1] : List ℝ), bayesScore [[2, 0, 1, -1], [1, -1, 2, 0]] [1, 1, -1, -1] exPosDist [p, q] u ≤
        bayesScore [[2, 0, 1, -1], [1, -1, 2, 0]] [1, 1, -1, -1] exPosDist [p, q] y) → (y = 1 → q ≤ p) ∧ (y = -1 → p ≤ q) := by
    intro p q y hy h
    constructor
    · rintro rfl
      have := h (-1) (by simp)
      rw [hsc _ _ _ (.inl rfl), hsc _ _ _ (.inr rfl), mul_le_mul_iff_right₀ hpos, Real.exp_le_exp] at this
      norm_num at this
      nlinarith
    · rintro rfl
      have := h 1 (by simp)
      rw [hsc _ _ _ (.inl rfl), hsc _ _ _ (.inr rfl), mul_le_mul_iff_right₀ hpos, Real.exp_le_exp] at this
      norm_num at this
      nlinarith
  refine ⟨f, h3, exRows_same, ?_, ?_⟩
  · obtain ⟨y, h5, h6, h7⟩ := h4 exRowAB 0 [1, 0] 1 rfl rfl
    rcases hlabel y h5 with rfl | rfl
    · exact h6
    · exact absurd ((key 1 0 _ h5 h7).2 rfl) (by norm_num)
  · obtain ⟨y, h5, h6, h7⟩ := h4 exRowBA 0 [0, 1] 1 rfl rfl
    rcases hlabel y h5 with rfl | rfl
    · exact absurd ((key 0 1 _ h5 h7).1 rfl) (by norm_num)
    · exact h6

/-- **False for neural networks**: a network with one layer and weights `(1, 0)`, as its constructor builds it when the random numbers come out so,
returns `1` and `0` for the same row listed in two orders. -/
theorem nn_answers_by_position :
    ∃ f, NNHypothesis.new (fun _ _ j => if j = 0 then 1 else 0) (fun _ _ => 0) .regression [2, 1] [.id] = .ok f ∧
      (∀ nm, valueAt exRowAB 0 nm = valueAt exRowBA 0 nm) ∧ f.predictReg exRowAB 0 = .ok 1 ∧ f.predictReg exRowBA 0 = .ok 0 := by
  refine ⟨_, rfl, exRows_same, ?_, ?_⟩ <;>
  simp [NNHypothesis.predictReg, Sample.at', Sample.mapAll, exRowAB, exRowBA, Feature.index, DenseFeature.index, NNHypothesis.eval, NNHypothesis.evalLayers,
    NNHypothesis.newLayers, Layer.new, Layer.forward, Layer.affine, Layer.nonlinear, Activation.eval, innerProduct, List.range_succ, Except.map]

/-- Non-vacuity of `nb_same_answer_partial` and `nn_same_answer_partial`: the same columns stored differently, in samples of different length. -/
example : ∃ s' : Sample ℝ, SampleOk exRowAB ∧ SampleOk s' ∧ SameColumns exRowAB s' ∧ ∀ nm, valueAt exRowAB 0 nm = valueAt s' 1 nm := by
  refine ⟨{ nameToIndex := [("a", 0), ("b", 1)], features := [.sparse ⟨"a", [(1, 1)], 2⟩, .dense ⟨"b", [5, 0]⟩], target := [1, 1], nSample := 2, nFeature := 2 },
    exRowAB_ok, ⟨rfl, by simp [Feature.name], by simp [Feature.name], ?_, rfl⟩, rfl, ?_⟩
  · intro f hf
    simp only [List.mem_cons, List.not_mem_nil, or_false] at hf
    rcases hf with rfl | rfl
    · exact ⟨rfl, by simp, by simp⟩
    · rfl
  · intro nm
    by_cases ha : nm = "a"
    · subst ha
      simp [valueAt, exRowAB, Feature.name, Feature.val]
      rfl
    by_cases hb : nm = "b"
    · subst hb; simp [valueAt, exRowAB, Feature.name, Feature.val]
    · rw [valueAt_none (by simp [exRowAB, Feature.name, ha, hb]), valueAt_none (by simp [Feature.name, ha, hb])]

end Miniboosts.Props
