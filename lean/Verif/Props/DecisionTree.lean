import Verif.Lemmas.Tree
import Verif.Props.Feature

set_option linter.unusedSectionVars false

/-! # Decision trees: C35, C36, C37, C38, C40, C57, C70, C71 -/

namespace Miniboosts.Props

open Miniboosts Spec

variable {K : Type*} [Field K] [LinearOrder K] [IsStrictOrderedRing K] [FloorRing K]

/-! ## C71: training succeeds -/

/-- C71: on a well-formed sample with at least one column and some positive weight, training returns a tree: no
index out of range, no failing `unwrap`, no failing assertion, for all four criteria and all depths. -/
theorem tree_training_succeeds {env : TreeEnv K} {t : DecisionTree K} {s : Sample K} {dist : List K} (h : TrainOk env t s dist) :
    ∃ tree, t.produce env s dist = .ok tree := by
  have hr := rowsOk_train h.some_weight
  obtain ⟨node, e⟩ := fullTree_ok h t.maxDepth _ hr
  unfold DecisionTree.produce
  rw [positiveRows_ok (List.range s.nSample) (fun i hi => by rw [h.weights]; exact List.mem_range.mp hi)]
  simp only
  rw [if_neg (show ¬ (List.range s.nSample).filter (fun i => 0 < dist.getD i 0) = [] from hr.1)]
  change ∃ tree, (match DecisionTree.fullTree env t s dist t.maxDepth (trainRows s dist) with
      | .error e => Except.error e
      | .ok tree => Except.ok (TreeNode.ofTrain tree.removeRedundant)) = Except.ok tree
  rw [e]
  exact ⟨_, rfl⟩

/-! ## C35: the depth limit -/

/-- The length of the longest way through a tree. -/
def height : TreeNode K → Nat
  | .leaf _ => 0
  | .branch _ l r => 1 + max (height l) (height r)

omit [FloorRing K] in
theorem path_le_height (s : Sample K) (i : Nat) (t : TreeNode K) : (path s i t).length ≤ height t := by
  induction t with
  | leaf c => simp [path, height]
  | branch rule l r ihl ihr =>
    unfold path height
    split
    · simp only [List.length_cons]; omega
    · simp only [List.length_cons]; omega

theorem removeRedundant_height (n : TrainNode K) : height (TreeNode.ofTrain n.removeRedundant) ≤ height (TreeNode.ofTrain n) := by
  induction n with
  | leaf c w l => exact le_refl _
  | branch rule left right c w l n ihl ihr =>
    unfold TrainNode.removeRedundant
    split
    · simp only [TreeNode.ofTrain, height]; omega
    · split
      · simp only [TreeNode.ofTrain, height]; omega
      · split
        · simp [TreeNode.ofTrain, height]
        · simp only [TreeNode.ofTrain, height]; omega

theorem fullTree_height {env : TreeEnv K} {t : DecisionTree K} {s : Sample K} {dist : List K} : ∀ (depth : Nat) (idx : List Nat) (node : TrainNode K),
    DecisionTree.fullTree env t s dist depth idx = .ok node → height (TreeNode.ofTrain node) ≤ depth := by
  intro depth
  induction depth with
  | zero =>
    intro idx node h
    unfold DecisionTree.fullTree at h
    split at h
    · cases h
    · split at h
      · cases h
      · simp only [Except.ok.injEq] at h
        subst h
        simp [TreeNode.ofTrain, height]
  | succ depth ih =>
    intro idx node h
    unfold DecisionTree.fullTree at h
    split at h
    · cases h
    · split at h
      · cases h
      · simp only at h
        split at h
        · simp only [Except.ok.injEq] at h
          subst h
          simp [TreeNode.ofTrain, height]
        · split at h
          · cases h
          · split at h
            · cases h
            · split at h
              · simp only [Except.ok.injEq] at h
                subst h
                simp [TreeNode.ofTrain, height]
              · split at h
                · cases h
                · rename_i l hl
                  split at h
                  · cases h
                  · rename_i r hr
                    simp only [Except.ok.injEq] at h
                    subst h
                    have h1 := ih _ _ hl
                    have h2 := ih _ _ hr
                    simp only [TrainNode.mkBranch, TreeNode.ofTrain, height]
                    omega

/-- C35: whatever tree training returns, every row of every sample passes at most `max_depth` tests. -/
theorem tree_depth {env : TreeEnv K} {t : DecisionTree K} {s : Sample K} {dist : List K} {tree : TreeNode K}
    (h : t.produce env s dist = .ok tree) (s' : Sample K) (i : Nat) : (path s' i tree).length ≤ t.maxDepth := by
  unfold DecisionTree.produce at h
  split at h
  · cases h
  · split at h
    · cases h
    · split at h
      · cases h
      · rename_i node hn
        simp only [Except.ok.injEq] at h
        subst h
        exact (path_le_height s' i _).trans ((removeRedundant_height node).trans (fullTree_height _ _ _ hn))

/-! ## C40: pruning -/

/-- C40: the pruning pass returns the trained tree unchanged, so it changes no prediction. -/
theorem pruning_identity {env : TreeEnv K} (horder : ∀ m, (env.order m).Perm m) {t : DecisionTree K} {s : Sample K} (hs : SampleOk s)
    {dist : List K} (hd : dist.length = s.nSample) {depth : Nat} {node : TrainNode K} (hp : ∃ i < s.nSample, 0 < dist.getD i 0)
    (h : DecisionTree.fullTree env t s dist depth (trainRows s dist) = .ok node) : node.removeRedundant = node :=
  removeRedundant_id node (rowsOk_train hp) (fullTree_grown horder hs hd _ _ _ (rowsOk_train hp) h)

/-! ## C36: bounded confidence, non-negative edge -/

theorem confidence_of_leaves {P : K → Prop} (t : TrainNode K) (hP : ∀ {idx : List Nat} {s : Sample K} {dist : List K} {c w l},
    LeafOk s dist idx c w l → P c) {s : Sample K} {dist : List K} {idx : List Nat} (hg : Grown s dist idx t) (s' : Sample K)
    (i : Nat) (c : K) (h : (TreeNode.ofTrain t).confidence s' i = .ok c) : P c := by
  induction t generalizing idx with
  | leaf c' w l =>
    simp only [TreeNode.ofTrain, TreeNode.confidence, Except.ok.injEq] at h
    subst h
    exact hP hg
  | branch rule left right c' w l n ihl ihr =>
    obtain ⟨_, _, _, _, _, h5, h6⟩ := hg
    simp only [TreeNode.ofTrain, TreeNode.confidence] at h
    split at h
    · cases h
    · exact ihl h5 h
    · exact ihr h6 h

/-- C36, first half: the confidence of a trained tree is in `[-1, 1]`, on every row of every sample. -/
theorem tree_confidence_range {env : TreeEnv K} (horder : ∀ m, (env.order m).Perm m) {t : DecisionTree K} {s : Sample K} (hs : SampleOk s)
    {dist : List K} (hd : dist.length = s.nSample) {tree : TreeNode K} (h : t.produce env s dist = .ok tree) (s' : Sample K) (i : Nat)
    (c : K) (hc : tree.confidence s' i = .ok c) : -1 ≤ c ∧ c ≤ 1 := by
  obtain ⟨node, _, _, hg, rfl⟩ := produce_grown horder hs hd h
  refine confidence_of_leaves (P := fun c => -1 ≤ c ∧ c ≤ 1) node ?_ hg s' i c hc
  rintro idx s dist c w l ⟨_, _, _, _, _, rfl, _⟩
  exact clamp1_range _

theorem goesLeft_all {s : Sample K} (hs : SampleOk s) {rule : Splitter K} {i : Nat} {b : Bool}
    (h : rule.goesLeft s i = .ok b) {j : Nat} (hj : j < s.nSample) : rule.goesLeft s j = .ok (leftOf s rule j) := by
  by_cases hm : rule.feature ∈ s.features.map Feature.name
  · obtain ⟨f, hf, e⟩ := List.mem_map.mp hm
    have : rule = ⟨f.name, rule.threshold⟩ := by rw [e]
    rw [this, goesLeft_ok hs hf rule.threshold hj]
    simp only [leftOf, cell_eq hs hf]
  · unfold Splitter.goesLeft at h
    rw [Sample.byName_missing hs.table hm] at h
    cases h

theorem grown_confidence_all {s : Sample K} (hs : SampleOk s) {dist : List K} (node : TrainNode K) : ∀ {idx : List Nat}, idx ≠ [] →
    Grown s dist idx node → ∀ i < s.nSample, (TreeNode.ofTrain node).confidence s i = .ok (evalAt s i (TreeNode.ofTrain node)) := by
  induction node with
  | leaf c w l => intro idx _ _ i _; rfl
  | branch rule left right c w l n ihl ihr =>
    intro idx hne h i hi
    obtain ⟨h1, h2, h3, h4, h7, h5, h6⟩ := h
    obtain ⟨j, hj⟩ := List.exists_mem_of_ne_nil idx hne
    simp only [TreeNode.ofTrain, TreeNode.confidence, goesLeft_all hs (h7 j hj) hi, evalAt]
    cases hb : leftOf s rule i with
    | true => exact ihl h3 h5 i hi
    | false => exact ihr h4 h6 i hi

theorem sum_train {s : Sample K} {dist : List K} (hnn : ∀ d ∈ dist, 0 ≤ d) (g : Nat → K) :
    ((trainRows s dist).map (fun i => dist.getD i 0 * g i)).sum = ((List.range s.nSample).map (fun i => dist.getD i 0 * g i)).sum := by
  unfold trainRows
  generalize List.range s.nSample = l
  induction l with
  | nil => simp
  | cons i l ih =>
    simp only [List.filter_cons]
    by_cases hp : 0 < dist.getD i 0
    · simp only [hp, decide_true, if_true, List.map_cons, List.sum_cons, ih]
    · have h0 : dist.getD i 0 = 0 := by
        apply le_antisymm (not_lt.mp hp)
        rw [List.getD_eq_getElem?_getD]
        cases he : dist[i]? with
        | none => simp
        | some d => simpa using hnn d (List.mem_of_getElem? he)
      rw [if_neg (by simpa using not_lt.mp hp), List.map_cons, List.sum_cons, h0, zero_mul, zero_add, ih]

/-- C36, second half: for `±1` labels and non-negative weights, every row gets a confidence, and the edge of the tree
under the training weights is at least the squared edge of the better constant hypothesis over the total weight; in
particular it is not negative. -/
theorem tree_edge_nonneg {env : TreeEnv K} (horder : ∀ m, (env.order m).Perm m) {t : DecisionTree K} {s : Sample K} (hs : SampleOk s)
    {dist : List K} (hd : dist.length = s.nSample) (hnn : ∀ d ∈ dist, 0 ≤ d) (hpm : ∀ y ∈ s.target, y = 1 ∨ y = -1)
    {tree : TreeNode K} (h : t.produce env s dist = .ok tree) :
    ∃ conf : Nat → K, (∀ i < s.nSample, tree.confidence s i = .ok (conf i)) ∧
      ((List.range s.nSample).map (fun i => dist.getD i 0 * s.target.getD i 0)).sum ^ 2 / dist.sum
        ≤ ((List.range s.nSample).map (fun i => dist.getD i 0 * s.target.getD i 0 * conf i)).sum ∧
      0 ≤ ((List.range s.nSample).map (fun i => dist.getD i 0 * s.target.getD i 0 * conf i)).sum := by
  obtain ⟨node, _, hr, hg, rfl⟩ := produce_grown horder hs hd h
  have hlab : ∀ i ∈ trainRows s dist, s.target.getD i 0 = 1 ∨ s.target.getD i 0 = -1 := by
    intro i hi
    have : i < s.target.length := by rw [hs.labels]; exact (hr.2 i hi).1
    rw [List.getD_eq_getElem?_getD, List.getElem?_eq_getElem this]
    exact hpm _ (List.getElem_mem this)
  have key := grown_edge node hr hlab hg
  have hw := weightOf_pos hr.1 (fun i hi => (hr.2 i hi).2)
  have e1 : treeEdge s dist (trainRows s dist) (TreeNode.ofTrain node)
      = ((List.range s.nSample).map (fun i => dist.getD i 0 * s.target.getD i 0 * evalAt s i (TreeNode.ofTrain node))).sum := by
    unfold treeEdge
    simp only [mul_assoc]
    exact sum_train hnn _
  have e2 : labelSum s dist (trainRows s dist) = ((List.range s.nSample).map (fun i => dist.getD i 0 * s.target.getD i 0)).sum :=
    sum_train hnn _
  have e3 : weightOf dist (trainRows s dist) = dist.sum := by
    have := sum_train (s := s) hnn (fun _ => (1 : K))
    simp only [mul_one] at this
    unfold weightOf
    rw [this, ← hd]
    congr 1
    apply List.ext_getElem (by simp)
    intro i h1 h2
    simp [List.getD_eq_getElem?_getD, List.getElem?_eq_getElem h2]
  rw [e3] at hw
  rw [e1, e2, e3] at key
  refine ⟨fun i => evalAt s i (TreeNode.ofTrain node), grown_confidence_all hs node hr.1 hg, key, le_trans ?_ key⟩
  exact div_nonneg (sq_nonneg _) hw.le

/-! ## C37: leaves own their rows -/

/-- C37: for `±1` labels, the confidence given at prediction time to a training row is the weighted mean label of exactly
those training rows which take the same way through the tree (left exactly when the tested value is below the
threshold). -/
theorem leaf_owns_rows {env : TreeEnv K} (horder : ∀ m, (env.order m).Perm m) {t : DecisionTree K} {s : Sample K} (hs : SampleOk s)
    {dist : List K} (hd : dist.length = s.nSample) (hpm : ∀ y ∈ s.target, y = 1 ∨ y = -1) {tree : TreeNode K}
    (h : t.produce env s dist = .ok tree) (i : Nat) (hi : i < s.nSample) (hpos : 0 < dist.getD i 0) :
    ∃ c, tree.confidence s i = .ok c ∧
      0 < weightOf dist ((trainRows s dist).filter (fun j => path s j tree = path s i tree)) ∧
      c = labelSum s dist ((trainRows s dist).filter (fun j => path s j tree = path s i tree))
        / weightOf dist ((trainRows s dist).filter (fun j => path s j tree = path s i tree)) := by
  obtain ⟨node, _, hr, hg, rfl⟩ := produce_grown horder hs hd h
  have hlab : ∀ i ∈ trainRows s dist, s.target.getD i 0 = 1 ∨ s.target.getD i 0 = -1 := by
    intro i hi
    have : i < s.target.length := by rw [hs.labels]; exact (hr.2 i hi).1
    rw [List.getD_eq_getElem?_getD, List.getElem?_eq_getElem this]
    exact hpm _ (List.getElem_mem this)
  have hmem : i ∈ trainRows s dist := by
    simp only [trainRows, List.mem_filter, List.mem_range, decide_eq_true_eq]; exact ⟨hi, hpos⟩
  have hne : (trainRows s dist).filter (fun j => path s j (TreeNode.ofTrain node) = path s i (TreeNode.ofTrain node)) ≠ [] := by
    intro he
    have : i ∈ (trainRows s dist).filter (fun j => path s j (TreeNode.ofTrain node) = path s i (TreeNode.ofTrain node)) :=
      List.mem_filter.mpr ⟨hmem, by simp⟩
    rw [he] at this; cases this
  have hw := weightOf_pos hne (fun j hj => (hr.2 j (List.mem_filter.mp hj).1).2)
  refine ⟨_, grown_confidence node hg i hmem, hw, ?_⟩
  rw [eq_div_iff hw.ne']
  exact grown_mean node hr hlab hg i hmem

/-! ## C38: optimal splits -/

theorem rowAt_eq {s : Sample K} (hs : SampleOk s) (dist : List K) {f : Feature K} (hf : f ∈ s.features) :
    rowAt s dist f.name = rowOf f s.target dist := by
  funext i
  simp only [rowAt, rowOf, cell_eq hs hf]

/-- C38: the split search returns a column and a threshold; the threshold divides the rows as some bin boundary of that
column does, and under the chosen criterion (minimal entropy or Gini impurity, maximal edge or twoing value, computed
from the rows) no bin boundary of any column is better. -/
theorem best_split_optimal {env : TreeEnv K} {t : DecisionTree K} {s : Sample K} {dist : List K} (h : TrainOk env t s dist) (c : Criterion)
    {idx : List Nat} (hne : idx ≠ []) (hidx : ∀ i ∈ idx, i < s.nSample ∧ 0 < dist.getD i 0) :
    ∃ f ∈ s.features, ∃ th, c.bestSplit env t.bins s dist idx = .ok (f.name, th) ∧
      (∃ bins b, HMap.get? t.bins f.name = some bins ∧ b ∈ bins ∧
        (SameSplit (idx.map (rowAt s dist f.name)) th b.start ∨ SameSplit (idx.map (rowAt s dist f.name)) th b.stop)) ∧
      OptimalSplit env.ln c t.bins s dist idx f.name th := by
  obtain ⟨f, hf, th, e1, e2, e3⟩ := bestSplit_ok h.ext c h.sample h.columns h.weights hne h.bins hidx h.values
  refine ⟨f, hf, th, e1, ?_, ?_⟩
  · rw [rowAt_eq h.sample dist hf]; exact e2
  · intro g hg bins hb b hbm t' ht'
    rw [rowAt_eq h.sample dist hf, rowAt_eq h.sample dist hg]
    exact e3 g hg bins hb b hbm t' ht'

theorem fullTree_optimal {env : TreeEnv K} {t : DecisionTree K} {s : Sample K} {dist : List K} (ht : TrainOk env t s dist) :
    ∀ (depth : Nat) (idx : List Nat) (node : TrainNode K), RowsOk s dist idx → DecisionTree.fullTree env t s dist depth idx = .ok node →
      SplitsOptimal env.ln t.criterion t.bins s dist idx (TreeNode.ofTrain node) := by
  intro depth
  induction depth with
  | zero =>
    intro idx node hr h
    have := fullTree_height 0 idx node h
    cases node with
    | leaf c w l => trivial
    | branch rule left right c w l n => simp only [TreeNode.ofTrain, height] at this; omega
  | succ depth ih =>
    intro idx node hr h
    obtain ⟨c, l, e1, e2⟩ := confidenceAndLoss_ok ht.order (s := s) (dist := dist) hr.1
      (fun i hi => ⟨by rw [ht.sample.labels]; exact (hr.2 i hi).1, by rw [ht.weights]; exact (hr.2 i hi).1, (hr.2 i hi).2⟩)
    unfold DecisionTree.fullTree at h
    rw [sumDist_ok (fun i hi => by rw [ht.weights]; exact (hr.2 i hi).1), e1] at h
    simp only at h
    split at h
    · simp only [Except.ok.injEq] at h
      subst h
      trivial
    · obtain ⟨f, hf, th, b1, _, b3⟩ := best_split_optimal ht t.criterion hr.1 hr.2
      rw [b1] at h
      simp only at h
      rw [splitRows_ok ht.sample hf th idx (fun i hi => (hr.2 i hi).1)] at h
      simp only at h
      split at h
      · simp only [Except.ok.injEq] at h
        subst h
        trivial
      · rename_i hlr
        rw [not_or] at hlr
        obtain ⟨n1, g1⟩ := fullTree_ok ht depth _ (rowsOk_filter hr hlr.1)
        obtain ⟨n2, g2⟩ := fullTree_ok ht depth _ (rowsOk_filter hr hlr.2)
        rw [g1, g2] at h
        simp only [Except.ok.injEq] at h
        subst h
        refine ⟨b3, ih _ _ (rowsOk_filter hr hlr.1) g1, ?_⟩
        have := ih _ _ (rowsOk_filter hr hlr.2) g2
        have e : (fun i => decide (¬ cell s f.name i < th)) = fun i => !leftOf s ⟨f.name, th⟩ i := by
          funext i
          unfold leftOf
          by_cases hh : cell s f.name i < th <;> simp [hh]
        show SplitsOptimal env.ln t.criterion t.bins s dist (idx.filter (fun i => decide (¬ cell s f.name i < th))) _
        rw [e]
        exact this

/-- C38 for whole trees: every test of a trained tree is an optimal split of the training rows which reach it. -/
theorem tree_splits_optimal {env : TreeEnv K} {t : DecisionTree K} {s : Sample K} {dist : List K} (h : TrainOk env t s dist)
    {tree : TreeNode K} (ht : t.produce env s dist = .ok tree) :
    SplitsOptimal env.ln t.criterion t.bins s dist (trainRows s dist) tree := by
  obtain ⟨node, hn, hr, _, rfl⟩ := produce_grown h.order h.sample h.weights ht
  exact fullTree_optimal h _ _ _ hr hn

/-! ## C70: weak learnability -/

theorem asI32_pm {y : K} (h : y = 1 ∨ y = -1) : ((asI32 y : Int) : K) = y := by
  have h0 : ((0 : K) < 1) := one_pos
  have t1 : trunc (1 : K) = 1 := by
    unfold trunc
    rw [if_pos zero_le_one]; exact Int.floor_one
  have t2 : trunc (-1 : K) = -1 := by
    unfold trunc
    rw [if_neg (by linarith), Int.ceil_neg, Int.floor_one]
  rcases h with rfl | rfl
  · unfold asI32; rw [t1]; norm_num
  · unfold asI32; rw [t2]; norm_num

theorem edge_value {s : Sample K} {dist : List K} {idx : List Nat} (hpm : ∀ i ∈ idx, s.target.getD i 0 = 1 ∨ s.target.getD i 0 = -1)
    (ln : K → K) (name : String) (t : K) :
    splitValue ln (idx.map (rowAt s dist name)) t .edge =
      |labelSum s dist (idx.filter (fun i => !leftOf s ⟨name, t⟩ i)) - labelSum s dist (idx.filter (leftOf s ⟨name, t⟩))| := by
  simp only [splitValue]
  congr 1
  rw [List.map_map]
  induction idx with
  | nil => simp [labelSum]
  | cons i idx ih =>
    have hi := asI32_pm (hpm i (by simp))
    simp only [List.map_cons, List.sum_cons, ih (fun j hj => hpm j (List.mem_cons_of_mem _ hj)), Function.comp_apply, rowAt, hi]
    by_cases hb : cell s name i < t
    · have hl : leftOf s ⟨name, t⟩ i = true := by simp [leftOf, hb]
      simp only [hb, if_true, List.filter_cons, hl, Bool.not_true, Bool.false_eq_true, if_false]
      simp only [labelSum, List.map_cons, List.sum_cons]; ring
    · have hl : leftOf s ⟨name, t⟩ i = false := by simp [leftOf, hb]
      simp only [hb, if_false, List.filter_cons, hl, Bool.not_false, Bool.false_eq_true, if_true]
      simp only [labelSum, List.map_cons, List.sum_cons]; ring

theorem abs_labelSum_le {s : Sample K} {dist : List K} {idx : List Nat} (hr : ∀ i ∈ idx, 0 < dist.getD i 0)
    (hpm : ∀ i ∈ idx, s.target.getD i 0 = 1 ∨ s.target.getD i 0 = -1) : |labelSum s dist idx| ≤ weightOf dist idx := by
  unfold labelSum weightOf
  induction idx with
  | nil => simp
  | cons i idx ih =>
    simp only [List.map_cons, List.sum_cons]
    refine (abs_add_le _ _).trans (add_le_add ?_ (ih (fun j hj => hr j (List.mem_cons_of_mem _ hj)) (fun j hj => hpm j (List.mem_cons_of_mem _ hj))))
    have hd := hr i (by simp)
    rcases hpm i (by simp) with h | h
    · rw [h, mul_one, abs_of_pos hd]
    · rw [h, mul_neg_one, abs_neg, abs_of_pos hd]

theorem sq_le_of_abs {a b : K} (h : |a| ≤ b) : a ^ 2 ≤ b ^ 2 := by
  rw [← sq_abs a]
  have := abs_nonneg a
  exact pow_le_pow_left₀ this h 2

/-- C70: with the edge criterion, `±1` labels and depth at least one, if some decision stump at some bin boundary has edge
`γ` under the training weights, the tree has edge at least `γ² / (total weight)`. -/
theorem edge_tree_weak_learner {env : TreeEnv K} {t : DecisionTree K} {s : Sample K} {dist : List K} (ht : TrainOk env t s dist)
    (hc : t.criterion = .edge) (hdepth : 0 < t.maxDepth) (hnn : ∀ d ∈ dist, 0 ≤ d) (hpm : ∀ y ∈ s.target, y = 1 ∨ y = -1)
    {tree : TreeNode K} (h : t.produce env s dist = .ok tree) :
    ∃ conf : Nat → K, (∀ i < s.nSample, tree.confidence s i = .ok (conf i)) ∧
      ∀ g ∈ s.features, ∀ bins, HMap.get? t.bins g.name = some bins → ∀ b ∈ bins, ∀ th, th = b.start ∨ th = b.stop →
        ((List.range s.nSample).map (fun i => dist.getD i 0 * s.target.getD i 0 * (if g.val i < th then -1 else 1))).sum ^ 2
          ≤ weightOf dist (List.range s.nSample)
            * ((List.range s.nSample).map (fun i => dist.getD i 0 * s.target.getD i 0 * conf i)).sum := by
  obtain ⟨node, hn, hr, hg, rfl⟩ := produce_grown ht.order ht.sample ht.weights h
  have hlab : ∀ i ∈ trainRows s dist, s.target.getD i 0 = 1 ∨ s.target.getD i 0 = -1 := by
    intro i hi
    have : i < s.target.length := by rw [ht.sample.labels]; exact (hr.2 i hi).1
    rw [List.getD_eq_getElem?_getD, List.getElem?_eq_getElem this]
    exact hpm _ (List.getElem_mem this)
  refine ⟨fun i => evalAt s i (TreeNode.ofTrain node), grown_confidence_all ht.sample node hr.1 hg, ?_⟩
  intro g hgm bins hb b hbm th hth
  have e1 : treeEdge s dist (trainRows s dist) (TreeNode.ofTrain node)
      = ((List.range s.nSample).map (fun i => dist.getD i 0 * s.target.getD i 0 * evalAt s i (TreeNode.ofTrain node))).sum := by
    unfold treeEdge
    simp only [mul_assoc]
    exact sum_train hnn _
  have e3 : weightOf dist (trainRows s dist) = weightOf dist (List.range s.nSample) := by
    have := sum_train (s := s) hnn (fun _ => (1 : K))
    simp only [mul_one] at this
    exact this
  have e4 : ((List.range s.nSample).map (fun i => dist.getD i 0 * s.target.getD i 0 * (if g.val i < th then -1 else 1))).sum ^ 2
      = splitValue env.ln ((trainRows s dist).map (rowAt s dist g.name)) th .edge ^ 2 := by
    simp only [splitValue]
    rw [sq_abs]
    congr 1
    simp only [mul_assoc]
    rw [← sum_train hnn, List.map_map]
    congr 1
    apply List.map_congr_left
    intro i hi
    simp only [Function.comp_apply, rowAt, asI32_pm (hlab i hi), cell_eq ht.sample hgm]
    ring
  rw [e4, ← e1, ← e3]
  set idx := trainRows s dist with hidx
  have hpos := weightOf_pos hr.1 (fun i hi => (hr.2 i hi).2)
  have hge := grown_edge node hr hlab hg
  -- enough: below `(labelSum)²`, or the split was made
  have viaRoot : splitValue env.ln (idx.map (rowAt s dist g.name)) th .edge ≤ |labelSum s dist idx| →
      splitValue env.ln (idx.map (rowAt s dist g.name)) th .edge ^ 2 ≤ weightOf dist idx * treeEdge s dist idx (TreeNode.ofTrain node) := by
    intro hle
    have h0 : 0 ≤ splitValue env.ln (idx.map (rowAt s dist g.name)) th .edge := by simp only [splitValue]; exact abs_nonneg _
    have h1 := pow_le_pow_left₀ h0 hle 2
    rw [sq_abs] at h1
    rw [div_le_iff₀ hpos] at hge
    linarith
  have hstump : splitValue env.ln (idx.map (rowAt s dist g.name)) th .edge ≤ weightOf dist idx := by
    rw [edge_value hlab]
    have a1 := abs_labelSum_le (s := s) (dist := dist) (idx := idx.filter (leftOf s ⟨g.name, th⟩))
      (fun i hi => (hr.2 i (List.mem_filter.mp hi).1).2) (fun i hi => hlab i (List.mem_filter.mp hi).1)
    have a2 := abs_labelSum_le (s := s) (dist := dist) (idx := idx.filter (fun i => !leftOf s ⟨g.name, th⟩ i))
      (fun i hi => (hr.2 i (List.mem_filter.mp hi).1).2) (fun i hi => hlab i (List.mem_filter.mp hi).1)
    rw [← weightOf_filter dist idx (leftOf s ⟨g.name, th⟩)]
    refine (abs_sub _ _).trans ?_
    linarith
  obtain ⟨depth, hdep⟩ : ∃ d, t.maxDepth = d + 1 := ⟨t.maxDepth - 1, by omega⟩
  rw [hdep] at hn
  obtain ⟨c, l, c1, c2⟩ := confidenceAndLoss_ok ht.order (s := s) (dist := dist) hr.1
      (fun i hi => ⟨by rw [ht.sample.labels]; exact (hr.2 i hi).1, by rw [ht.weights]; exact (hr.2 i hi).1, (hr.2 i hi).2⟩)
  unfold DecisionTree.fullTree at hn
  rw [sumDist_ok (fun i hi => by rw [ht.weights]; exact (hr.2 i hi).1), c1] at hn
  simp only at hn
  split at hn
  · rename_i hl0
    apply viaRoot
    refine hstump.trans ?_
    -- all rows have the same label
    obtain ⟨_, y, p, a, bb, _, d⟩ := c2
    obtain ⟨q1, q2, q3⟩ := pm_class (s := s) (dist := dist) hlab
    have hp : p = weightOf dist idx := by rw [hl0] at d; linarith
    have n1 := classW_nonneg (s := s) (fun i hi => (hr.2 i hi).2) 1
    have n2 := classW_nonneg (s := s) (fun i hi => (hr.2 i hi).2) (-1)
    have hy : y = 1 ∨ y = -1 := by
      by_contra hcon
      rw [not_or] at hcon
      rw [q3 y hcon.1 hcon.2] at a
      linarith
    rw [← q2]
    rcases hy with rfl | rfl
    · have : classW s dist idx (-1) = 0 := by linarith
      rw [this, sub_zero, ← a, hp, abs_of_pos hpos]
    · have : classW s dist idx 1 = 0 := by linarith
      rw [this, zero_sub, abs_neg, ← a, hp, abs_of_pos hpos]
  · obtain ⟨f, hf, bt, b1, _, b3⟩ := best_split_optimal ht t.criterion hr.1 hr.2
    rw [b1] at hn
    simp only at hn
    rw [splitRows_ok ht.sample hf bt idx (fun i hi => (hr.2 i hi).1)] at hn
    simp only at hn
    have hopt := b3 g hgm bins hb b hbm th hth
    rw [hc] at hopt
    change splitValue env.ln (idx.map (rowAt s dist g.name)) th .edge ≤ splitValue env.ln (idx.map (rowAt s dist f.name)) bt .edge at hopt
    have hv := edge_value (dist := dist) hlab env.ln f.name bt
    have hls := labelSum_filter s dist idx (leftOf s ⟨f.name, bt⟩)
    split at hn
    · rename_i hemp
      apply viaRoot
      refine hopt.trans (le_of_eq ?_)
      rw [hv, ← hls]
      rcases hemp with he | he
      · rw [he]; simp [labelSum]
      · rw [he]; simp [labelSum]
    · rename_i hlr
      rw [not_or] at hlr
      have rl := rowsOk_filter hr hlr.1
      have rr := rowsOk_filter hr hlr.2
      obtain ⟨n1, g1⟩ := fullTree_ok ht depth _ rl
      obtain ⟨n2, g2⟩ := fullTree_ok ht depth _ rr
      rw [g1, g2] at hn
      simp only [Except.ok.injEq] at hn
      subst hn
      have G1 := fullTree_grown ht.order ht.sample ht.weights _ _ _ rl g1
      have G2 := fullTree_grown ht.order ht.sample ht.weights _ _ _ rr g2
      have E1 := grown_edge n1 rl (fun i hi => hlab i (List.mem_filter.mp hi).1) G1
      have E2 := grown_edge n2 rr (fun i hi => hlab i (List.mem_filter.mp hi).1) G2
      have w1 := weightOf_pos rl.1 (fun i hi => (rl.2 i hi).2)
      have w2 := weightOf_pos rr.1 (fun i hi => (rr.2 i hi).2)
      simp only [TrainNode.mkBranch, TreeNode.ofTrain, treeEdge_branch]
      rw [hv] at hopt
      have h0 : 0 ≤ splitValue env.ln (idx.map (rowAt s dist g.name)) th .edge := by simp only [splitValue]; exact abs_nonneg _
      have hsq := pow_le_pow_left₀ h0 hopt 2
      rw [sq_abs] at hsq
      have key := two_leaves (A := labelSum s dist (idx.filter (fun i => !leftOf s ⟨f.name, bt⟩ i)))
        (B := -labelSum s dist (idx.filter (leftOf s ⟨f.name, bt⟩))) w2 w1
      rw [neg_sq, ← sub_eq_add_neg] at key
      have hsum := weightOf_filter dist idx (leftOf s ⟨f.name, bt⟩)
      rw [add_comm (weightOf dist (idx.filter fun i => !leftOf s ⟨f.name, bt⟩ i)), hsum, div_le_iff₀ hpos] at key
      have : (labelSum s dist (idx.filter (fun i => !leftOf s ⟨f.name, bt⟩ i)) ^ 2 / weightOf dist (idx.filter (fun i => !leftOf s ⟨f.name, bt⟩ i))
          + labelSum s dist (idx.filter (leftOf s ⟨f.name, bt⟩)) ^ 2 / weightOf dist (idx.filter (leftOf s ⟨f.name, bt⟩))) * weightOf dist idx
          ≤ (treeEdge s dist (idx.filter (leftOf s ⟨f.name, bt⟩)) (TreeNode.ofTrain n1)
            + treeEdge s dist (idx.filter (fun i => !leftOf s ⟨f.name, bt⟩ i)) (TreeNode.ofTrain n2)) * weightOf dist idx :=
        mul_le_mul_of_nonneg_right (by linarith) hpos.le
      linarith

/-! ## C57: the DOT export -/

theorem idAt_nil (id : Nat) (t : TreeNode K) : idAt id t [] = id := by cases t <;> rfl

theorem size_pos (t : TreeNode K) : 0 < size t := by cases t <;> simp only [size] <;> omega

/-- The next free number. -/
theorem dot_next (t : TreeNode K) : ∀ id, (t.toDotInfo id).2 = id + size t := by
  induction t with
  | leaf c => intro id; rfl
  | branch rule l r ihl ihr =>
    intro id
    simp only [TreeNode.toDotInfo, ihr, ihl, size]; omega

/-- C57: numbers are contiguous: the nodes of the tree get exactly the numbers from `id` to `id + size - 1`. -/
theorem dot_ids_contiguous (t : TreeNode K) : ∀ id n, (∃ p, subtree t p ≠ none ∧ idAt id t p = n) ↔ id ≤ n ∧ n < id + size t := by
  induction t with
  | leaf c =>
    intro id n
    simp only [size]
    constructor
    · rintro ⟨p, hp, rfl⟩
      cases p with
      | nil => simp [idAt]
      | cons b p => simp [subtree] at hp
    · intro h
      exact ⟨[], by simp [subtree], by simp only [idAt]; omega⟩
  | branch rule l r ihl ihr =>
    intro id n
    simp only [size]
    constructor
    · rintro ⟨p, hp, rfl⟩
      cases p with
      | nil => simp only [idAt]; omega
      | cons b p =>
        cases b with
        | true =>
          have := (ihl (id + 1) _).mp ⟨p, hp, rfl⟩
          simp only [idAt]; omega
        | false =>
          have := (ihr (id + 1 + size l) _).mp ⟨p, hp, rfl⟩
          simp only [idAt]; omega
    · intro h
      by_cases h1 : n = id
      · exact ⟨[], by simp [subtree], by simp only [idAt]; omega⟩
      · by_cases h2 : n < id + 1 + size l
        · obtain ⟨p, hp, e⟩ := (ihl (id + 1) n).mpr (by omega)
          exact ⟨true :: p, hp, e⟩
        · obtain ⟨p, hp, e⟩ := (ihr (id + 1 + size l) n).mpr (by omega)
          exact ⟨false :: p, hp, e⟩

/-- C57: different nodes get different numbers. -/
theorem dot_ids_distinct (t : TreeNode K) : ∀ id p q, subtree t p ≠ none → subtree t q ≠ none → idAt id t p = idAt id t q → p = q := by
  induction t with
  | leaf c =>
    intro id p q hp hq _
    cases p with
    | nil =>
      cases q with
      | nil => rfl
      | cons b q => simp [subtree] at hq
    | cons b p => simp [subtree] at hp
  | branch rule l r ihl ihr =>
    have bl : ∀ id p, subtree l p ≠ none → id ≤ idAt id l p ∧ idAt id l p < id + size l :=
      fun id p hp => (dot_ids_contiguous l id _).mp ⟨p, hp, rfl⟩
    have br : ∀ id p, subtree r p ≠ none → id ≤ idAt id r p ∧ idAt id r p < id + size r :=
      fun id p hp => (dot_ids_contiguous r id _).mp ⟨p, hp, rfl⟩
    intro id p q hp hq h
    cases p with
    | nil =>
      cases q with
      | nil => rfl
      | cons b q =>
        cases b with
        | true => have := bl (id + 1) q hq; simp only [idAt] at h; omega
        | false => have := br (id + 1 + size l) q hq; simp only [idAt] at h; omega
    | cons a p =>
      cases q with
      | nil =>
        cases a with
        | true => have := bl (id + 1) p hp; simp only [idAt] at h; omega
        | false => have := br (id + 1 + size l) p hp; simp only [idAt] at h; omega
      | cons b q =>
        cases a <;> cases b
        · simp only [idAt] at h; rw [ihr _ p q hp hq h]
        · have h1 := br (id + 1 + size l) p hp; have h2 := bl (id + 1) q hq; simp only [idAt] at h; omega
        · have h1 := bl (id + 1) p hp; have h2 := br (id + 1 + size l) q hq; simp only [idAt] at h; omega
        · simp only [idAt] at h; rw [ihl _ p q hp hq h]

/-- The lines which the export should contain: for every node one box or test with its number, for every test its two
edges to the numbers of its children. -/
def DotSpec (t : TreeNode K) (id : Nat) (line : TreeNode.DotLine K) : Prop :=
  ∃ p, (∃ c, subtree t p = some (.leaf c) ∧ line = .box (idAt id t p) c) ∨
    (∃ rule l r, subtree t p = some (.branch rule l r) ∧
      (line = .test (idAt id t p) rule ∨ line = .yes (idAt id t p) (idAt id t (p ++ [true])) ∨
        line = .no (idAt id t p) (idAt id t (p ++ [false]))))

theorem dotSpec_left {rule : Splitter K} {l r : TreeNode K} {id : Nat} {line : TreeNode.DotLine K} (h : DotSpec l (id + 1) line) :
    DotSpec (.branch rule l r) id line := by
  obtain ⟨p, h⟩ := h
  exact ⟨true :: p, h⟩

theorem dotSpec_right {rule : Splitter K} {l r : TreeNode K} {id : Nat} {line : TreeNode.DotLine K} (h : DotSpec r (id + 1 + size l) line) :
    DotSpec (.branch rule l r) id line := by
  obtain ⟨p, h⟩ := h
  exact ⟨false :: p, h⟩

/-- C57: the export consists of exactly one line per node and one line per parent-child pair. -/
theorem dot_lines (t : TreeNode K) : ∀ id line, line ∈ (t.toDotInfo id).1 ↔ DotSpec t id line := by
  induction t with
  | leaf c =>
    intro id line
    simp only [TreeNode.toDotInfo, List.mem_singleton]
    constructor
    · rintro rfl; exact ⟨[], Or.inl ⟨c, rfl, rfl⟩⟩
    · rintro ⟨p, ⟨c', h, rfl⟩ | ⟨rule, l, r, h, _⟩⟩
      · cases p with
        | nil => simp only [subtree, Option.some.injEq, TreeNode.leaf.injEq] at h; subst h; rfl
        | cons b p => simp [subtree] at h
      · cases p with
        | nil => simp [subtree] at h
        | cons b p => simp [subtree] at h
  | branch rule l r ihl ihr =>
    intro id line
    simp only [TreeNode.toDotInfo, List.mem_append, List.mem_singleton, List.mem_cons, List.not_mem_nil, or_false, ihl, ihr, dot_next]
    constructor
    · rintro (((h | h) | h) | h | h)
      · exact dotSpec_left h
      · exact ⟨[], Or.inr ⟨rule, l, r, rfl, Or.inl h⟩⟩
      · exact dotSpec_right h
      · refine ⟨[], Or.inr ⟨rule, l, r, rfl, Or.inr (Or.inl ?_)⟩⟩
        rw [h]; simp only [List.nil_append, idAt, idAt_nil]
      · refine ⟨[], Or.inr ⟨rule, l, r, rfl, Or.inr (Or.inr ?_)⟩⟩
        rw [h]; simp only [List.nil_append, idAt, idAt_nil]
    · rintro ⟨p, h⟩
      cases p with
      | nil =>
        rcases h with ⟨c, h, _⟩ | ⟨rule', l', r', h, h'⟩
        · simp [subtree] at h
        · simp only [subtree, Option.some.injEq, TreeNode.branch.injEq] at h
          obtain ⟨rfl, rfl, rfl⟩ := h
          simp only [List.nil_append, idAt, idAt_nil] at h'
          rcases h' with h' | h' | h'
          · exact Or.inl (Or.inl (Or.inr h'))
          · exact Or.inr (Or.inl h')
          · exact Or.inr (Or.inr h')
      | cons b p =>
        cases b with
        | true => exact Or.inl (Or.inl (Or.inl ⟨p, h⟩))
        | false => exact Or.inl (Or.inr ⟨p, h⟩)

/-- C57: a tree with `n` nodes is exported in `n` node lines and `n - 1` edge lines, none of them twice. -/
theorem dot_no_repeats (t : TreeNode K) : ∀ id, (t.toDotInfo id).1.Nodup ∧ (t.toDotInfo id).1.length + 1 = 2 * size t := by
  have range : ∀ (t : TreeNode K) id line, DotSpec t id line → ∃ k, id ≤ k ∧ k < id + size t ∧
      ((∃ c, line = .box k c) ∨ (∃ r, line = .test k r) ∨ (∃ m, line = .yes k m) ∨ ∃ m, line = .no k m) := by
    rintro t id line ⟨p, ⟨c, h, rfl⟩ | ⟨rule, l, r, h, h'⟩⟩
    · have := (dot_ids_contiguous t id _).mp ⟨p, by rw [h]; simp, rfl⟩
      exact ⟨_, this.1, this.2, Or.inl ⟨c, rfl⟩⟩
    · have := (dot_ids_contiguous t id _).mp ⟨p, by rw [h]; simp, rfl⟩
      rcases h' with rfl | rfl | rfl
      · exact ⟨_, this.1, this.2, Or.inr (Or.inl ⟨_, rfl⟩)⟩
      · exact ⟨_, this.1, this.2, Or.inr (Or.inr (Or.inl ⟨_, rfl⟩))⟩
      · exact ⟨_, this.1, this.2, Or.inr (Or.inr (Or.inr ⟨_, rfl⟩))⟩
  induction t with
  | leaf c => intro id; simp [TreeNode.toDotInfo, size]
  | branch rule l r ihl ihr =>
    intro id
    obtain ⟨l1, l2⟩ := ihl (id + 1)
    obtain ⟨r1, r2⟩ := ihr (id + 1 + size l)
    simp only [TreeNode.toDotInfo, dot_next]
    refine ⟨?_, ?_⟩
    · have hl : ∀ line ∈ (l.toDotInfo (id + 1)).1, ∃ k, id + 1 ≤ k ∧ k < id + 1 + size l ∧
        ((∃ c, line = .box k c) ∨ (∃ r, line = .test k r) ∨ (∃ m, line = .yes k m) ∨ ∃ m, line = .no k m) :=
        fun line h => range l _ line ((dot_lines l _ line).mp h)
      have hr : ∀ line ∈ (r.toDotInfo (id + 1 + size l)).1, ∃ k, id + 1 + size l ≤ k ∧ k < id + 1 + size l + size r ∧
        ((∃ c, line = .box k c) ∨ (∃ r, line = .test k r) ∨ (∃ m, line = .yes k m) ∨ ∃ m, line = .no k m) :=
        fun line h => range r _ line ((dot_lines r _ line).mp h)
      rw [List.nodup_append, List.nodup_append, List.nodup_append]
      refine ⟨⟨⟨l1, by simp, ?_⟩, r1, ?_⟩, by simp, ?_⟩
      · intro a ha b hb hab
        simp only [List.mem_singleton] at hb
        obtain ⟨k, k1, k2, k3⟩ := hl a ha
        subst hab; subst hb
        rcases k3 with ⟨c, k3⟩ | ⟨c, k3⟩ | ⟨c, k3⟩ | ⟨c, k3⟩ <;> cases k3
        omega
      · intro a ha b hb hab
        subst hab
        obtain ⟨m, m1, m2, m3⟩ := hr a hb
        rcases List.mem_append.mp ha with ha | ha
        · obtain ⟨k, k1, k2, k3⟩ := hl a ha
          rcases k3 with ⟨c, rfl⟩ | ⟨c, rfl⟩ | ⟨c, rfl⟩ | ⟨c, rfl⟩ <;>
          · rcases m3 with ⟨d, m3⟩ | ⟨d, m3⟩ | ⟨d, m3⟩ | ⟨d, m3⟩ <;> cases m3
            omega
        · simp only [List.mem_singleton] at ha
          subst ha
          rcases m3 with ⟨d, m3⟩ | ⟨d, m3⟩ | ⟨d, m3⟩ | ⟨d, m3⟩ <;> cases m3
          omega
      · intro a ha b hb hab
        subst hab
        have hb' : ∃ m, a = .yes id m ∨ a = .no id m := by
          simp only [List.mem_cons, List.not_mem_nil, or_false] at hb
          rcases hb with hb | hb
          · exact ⟨_, Or.inl hb⟩
          · exact ⟨_, Or.inr hb⟩
        have hk : ∃ k, id < k ∧ ((∃ c, a = .box k c) ∨ (∃ r, a = .test k r) ∨ (∃ m, a = .yes k m) ∨ ∃ m, a = .no k m) ∨ ∃ r, a = .test id r := by
          rcases List.mem_append.mp ha with ha | ha
          · rcases List.mem_append.mp ha with ha | ha
            · obtain ⟨k, k1, k2, k3⟩ := hl a ha
              exact ⟨k, Or.inl ⟨by omega, k3⟩⟩
            · simp only [List.mem_singleton] at ha
              exact ⟨0, Or.inr ⟨_, ha⟩⟩
          · obtain ⟨k, k1, k2, k3⟩ := hr a ha
            exact ⟨k, Or.inl ⟨by omega, k3⟩⟩
        obtain ⟨m, hb'⟩ := hb'
        obtain ⟨k, ⟨hk1, hk2⟩ | ⟨rr, hk⟩⟩ := hk
        · rcases hb' with rfl | rfl <;> rcases hk2 with ⟨d, m3⟩ | ⟨d, m3⟩ | ⟨d, m3⟩ | ⟨d, m3⟩ <;> cases m3 <;> omega
        · rcases hb' with rfl | rfl <;> cases hk
    · simp only [List.length_append, List.length_cons, List.length_nil, size]
      omega

end Miniboosts.Props
