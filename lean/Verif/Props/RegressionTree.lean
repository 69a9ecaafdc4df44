import Verif.Lemmas.RegTree
import Verif.Props.Bins
import Verif.Props.GBMBoost

set_option linter.unusedSectionVars false

/-! # Regression trees: C41, C42 -/

namespace Miniboosts.Props

open Miniboosts Spec

variable {K : Type*} [Field K] [LinearOrder K] [IsStrictOrderedRing K]

/-! ## C41: the leaf values -/

/-- C41: when the hessians of the rows plus the regulariser are positive, the prediction and the loss computed for a leaf are the minimiser and the
minimum of the second-order objective of its rows. -/
theorem leaf_value_is_minimiser {g h : List K} {idx : List Nat} {lam p l : K} (hg : ∀ i ∈ idx, i < g.length) (hh : ∀ i ∈ idx, i < h.length)
    (hpos : 0 < weightOf h idx + lam) (e : predictionAndLoss idx g h lam = .ok (p, l)) :
    leafObjective lam g h idx p = l ∧ ∀ v, l ≤ leafObjective lam g h idx v ∧ (leafObjective lam g h idx v = l → v = p) := by
  have hl := predictionAndLoss_inv hg hh e
  refine ⟨leafObjective_at hl, fun v => ⟨?_, ?_⟩⟩
  · rw [hl.2.2]; exact leafObjective_ge hpos v
  · intro hv
    rw [← leafObjective_at hl, leafObjective_eq, leafObjective_eq, hl.2.1] at hv
    rw [hl.2.1]
    have hne := hl.1
    rw [eq_div_iff hne]
    have h3 : (v * (weightOf h idx + lam) + weightOf g idx) ^ 2 = 0 := by
      have e1 : (weightOf h idx + lam) * (-weightOf g idx / (weightOf h idx + lam)) = -weightOf g idx := by field_simp
      generalize -weightOf g idx / (weightOf h idx + lam) = q at hv e1
      have e2 : weightOf g idx = -((weightOf h idx + lam) * q) := by linear_combination e1
      rw [e2] at hv ⊢
      have : (weightOf h idx + lam) * ((v - q) ^ 2) = 0 := by linear_combination 2 * hv
      rcases mul_eq_zero.mp this with h | h
      · exact absurd h hne
      · have hvq : v - q = 0 := by simpa using h
        have : v = q := by linear_combination hvq
        rw [this]; ring
    have h4 : v * (weightOf h idx + lam) + weightOf g idx = 0 := by simpa using h3
    linear_combination h4

/-- C41, on the trained tree: the value predicted for a training row is `-G/(H + lam)` over the training rows that end in the same leaf, and no other
value has a smaller second-order objective on those rows. -/
theorem reg_leaf_optimal {env : TreeEnv K} {t : RegressionTree K} {s : Sample K} (hs : SampleOk s) (hn : t.nSample = s.nSample) {pred g h : List K}
    (hd : Derivs t s pred g h) (hreg : Regular t.lambdaL2 h (List.range s.nSample)) {tree : TreeNode K} (e : t.produce env s pred = .ok tree) {i : Nat} (hi : i < s.nSample) :
    ∃ v, tree.confidence s i = .ok v ∧
      (let leaf := (List.range s.nSample).filter (fun j => path s j tree = path s i tree)
       v = -weightOf g leaf / (weightOf h leaf + t.lambdaL2) ∧ ∀ v', leafObjective t.lambdaL2 g h leaf v ≤ leafObjective t.lambdaL2 g h leaf v') := by
  obtain ⟨node, hgr, rfl⟩ := produce_rgrown hs hn hd e
  refine ⟨_, rgrown_value node hgr i (List.mem_range.mpr hi), ?_⟩
  obtain ⟨l, hl⟩ := rgrown_leaf node hgr i (List.mem_range.mpr hi)
  refine ⟨hl.2.1, fun v' => ?_⟩
  rw [leafObjective_at hl, hl.2.2]
  apply leafObjective_ge
  have h0 : ∀ i ∈ (List.range s.nSample).filter (fun j => path s j node.toNode = path s i node.toNode), 0 ≤ h.getD i 0 :=
    fun i hi => hreg.2.1 i (List.mem_filter.mp hi).1
  have h1 : 0 ≤ weightOf h ((List.range s.nSample).filter (fun j => path s j node.toNode = path s i node.toNode)) := by
    apply List.sum_nonneg
    intro v hv
    obtain ⟨j, hj, rfl⟩ := List.mem_map.mp hv
    exact hreg.2.1 j (List.mem_filter.mp hj).1
  have h2 := hl.1
  have h3 := hreg.1
  exact lt_of_le_of_ne (by linarith) (Ne.symm h2)

/-! ## C42: depth, splits, improvement -/

theorem rgrown_height {env : TreeEnv K} {t : RegressionTree K} {s : Sample K} {g h : List K} (node : RegTrainNode K) : ∀ {d : Nat} {idx : List Nat},
    RGrown env t s g h d idx node → height node.toNode ≤ d - 1 := by
  induction node with
  | leaf p l => intro d idx _; simp [RegTrainNode.toNode, height]
  | branch rule left right p l n ihl ihr =>
    intro d idx hgr
    obtain ⟨h1, _, _, _, _, _, _, h8, h9⟩ := hgr
    have := ihl h8
    have := ihr h9
    simp only [RegTrainNode.toNode, height]
    omega

/-- C42: a regression tree trained with `max_depth = d` asks at most `d - 1` questions about any row of any sample. -/
theorem reg_tree_depth {env : TreeEnv K} {t : RegressionTree K} {s : Sample K} (hs : SampleOk s) (hn : t.nSample = s.nSample) {pred g h : List K}
    (hd : Derivs t s pred g h) {tree : TreeNode K} (e : t.produce env s pred = .ok tree) (s' : Sample K) (i : Nat) :
    (path s' i tree).length ≤ t.maxDepth - 1 := by
  obtain ⟨node, hgr, rfl⟩ := produce_rgrown hs hn hd e
  exact (path_le_height s' i _).trans (rgrown_height node hgr)

/-- C42: with positive second derivatives, every test of the trained tree is at a bin boundary and maximises the gain, over the boundaries of all columns,
on the rows that reach it. -/
theorem reg_splits_best_partial {env : TreeEnv K} {t : RegressionTree K} {s : Sample K} (ht : RegOk env t s) (hrows : 0 < s.nSample) (hlam : 0 ≤ t.lambdaL2) {pred g h : List K}
    (hd : Derivs t s pred g h) (hh : ∀ i < s.nSample, 0 < h.getD i 0) {tree : TreeNode K} (e : t.produce env s pred = .ok tree) :
    TestsBest t.lambdaL2 g h t.bins s (List.range s.nSample) tree := by
  obtain ⟨node, hgr, rfl⟩ := produce_rgrown ht.sample ht.size hd e
  exact rgrown_tests ht hlam hd.2.2.1 hd.2.2.2 node (by simpa using hrows.ne') (fun i hi => ⟨List.mem_range.mp hi, hh i (List.mem_range.mp hi)⟩) hgr

/-- C42: with positive second derivatives, the objective of the trained tree is at most that of any constant. -/
theorem reg_fit_no_worse_partial {env : TreeEnv K} {t : RegressionTree K} {s : Sample K} (ht : RegOk env t s) (hrows : 0 < s.nSample) (hlam : 0 ≤ t.lambdaL2) {pred g h : List K}
    (hd : Derivs t s pred g h) (hh : ∀ i < s.nSample, 0 < h.getD i 0) {tree : TreeNode K} (e : t.produce env s pred = .ok tree) :
    ∃ f : Nat → K, (∀ i < s.nSample, tree.confidence s i = .ok (f i)) ∧
      ∀ v, treeObjective t.lambdaL2 g h (List.range s.nSample) f tree ≤ leafObjective t.lambdaL2 g h (List.range s.nSample) v := by
  obtain ⟨node, hgr, rfl⟩ := produce_rgrown ht.sample ht.size hd e
  have hne : List.range s.nSample ≠ [] := by simpa using hrows.ne'
  refine ⟨fun i => evalAt s i node.toNode, fun i hi => rgrown_value node hgr i (List.mem_range.mpr hi), fun v => ?_⟩
  refine (rgrown_objective ht hlam hd.2.2.1 hd.2.2.2 node hne (fun i hi => ⟨List.mem_range.mp hi, hh i (List.mem_range.mp hi)⟩) hgr).trans ?_
  apply leafObjective_ge
  have := weightOf_pos hne (fun i hi => hh i (List.mem_range.mp hi))
  linarith

/-! ## The two losses of the crate -/

theorem l2_derivs {t : RegressionTree K} {s : Sample K} (hs : SampleOk s) (hl : t.loss = GBMLoss.L2.toLossFn) {pred : List K} (hp : pred.length = s.nSample) :
    Derivs t s pred (List.zipWith (fun y p => p - y) s.target pred) (List.replicate s.nSample 1) := by
  have ht := hs.labels
  refine ⟨?_, ?_, by simp [ht, hp], by simp⟩
  · rw [hl]; simp [GBMLoss.toLossFn, GBMLoss.gradient, hp, ht]
  · rw [hl]; simp [GBMLoss.toLossFn, GBMLoss.hessian, hp, ht]

theorem l1_derivs {t : RegressionTree K} {s : Sample K} (hs : SampleOk s) (hl : t.loss = GBMLoss.L1.toLossFn) {pred : List K} (hp : pred.length = s.nSample) :
    Derivs t s pred (List.zipWith (fun y p => signum (y - p)) s.target pred) (List.replicate s.nSample 0) := by
  have ht := hs.labels
  refine ⟨?_, ?_, by simp [ht, hp], by simp⟩
  · rw [hl]; simp [GBMLoss.toLossFn, GBMLoss.gradient, hp, ht]
  · rw [hl]; simp [GBMLoss.toLossFn, GBMLoss.hessian, hp, ht]

theorem getD_zipWith {A B : Type*} (f : A → B → K) (a : List A) (b : List B) (da : A) (db : B) (i : Nat) (ha : i < a.length) (hb : i < b.length) :
    (List.zipWith f a b).getD i 0 = f (a.getD i da) (b.getD i db) := by
  simp [List.getD, ha, hb]

theorem leafSquares_nonneg (t : TreeNode K) : 0 ≤ leafSquares t := by
  induction t with
  | leaf v => exact sq_nonneg v
  | branch _ l r ihl ihr => exact add_nonneg ihl ihr

/-- C42 for the squared loss: adding the tree to the predictions it was fitted on never increases the sum of squared errors. -/
theorem reg_l2_reduces_error {env : TreeEnv K} {t : RegressionTree K} {s : Sample K} (ht : RegOk env t s) (hrows : 0 < s.nSample) (hlam : 0 ≤ t.lambdaL2)
    (hl : t.loss = GBMLoss.L2.toLossFn) {pred : List K} (hp : pred.length = s.nSample) {tree : TreeNode K} (e : t.produce env s pred = .ok tree) :
    ∃ f : Nat → K, (∀ i < s.nSample, tree.confidence s i = .ok (f i)) ∧
      ((List.range s.nSample).map (fun i => (pred.getD i 0 + f i - s.target.getD i 0) ^ 2)).sum
        ≤ ((List.range s.nSample).map (fun i => (pred.getD i 0 - s.target.getD i 0) ^ 2)).sum := by
  have hd := l2_derivs ht.sample hl hp
  obtain ⟨f, hf, hobj⟩ := reg_fit_no_worse_partial ht hrows hlam hd (fun i hi => by simp [List.getD, hi]) e
  refine ⟨f, hf, ?_⟩
  have h0 := hobj 0
  rw [leafObjective_eq] at h0
  unfold treeObjective at h0
  have hsq := mul_nonneg hlam (leafSquares_nonneg tree)
  have hsum : ((List.range s.nSample).map (fun i => (List.zipWith (fun y p => p - y) s.target pred).getD i 0 * f i + (List.replicate s.nSample (1 : K)).getD i 0 * f i ^ 2 / 2)).sum
      = ((List.range s.nSample).map (fun i => (pred.getD i 0 - s.target.getD i 0) * f i + f i ^ 2 / 2)).sum := by
    congr 1
    apply List.map_congr_left
    intro i hi
    have hi := List.mem_range.mp hi
    rw [getD_zipWith _ _ _ 0 0 i (by rw [ht.sample.labels]; exact hi) (by rw [hp]; exact hi)]
    simp [List.getD, hi]
  rw [hsum] at h0
  have hexp : ((List.range s.nSample).map (fun i => (pred.getD i 0 + f i - s.target.getD i 0) ^ 2)).sum =
      ((List.range s.nSample).map (fun i => (pred.getD i 0 - s.target.getD i 0) ^ 2)).sum
        + 2 * ((List.range s.nSample).map (fun i => (pred.getD i 0 - s.target.getD i 0) * f i + f i ^ 2 / 2)).sum := by
    generalize List.range s.nSample = idx
    induction idx with
    | nil => simp
    | cons i idx ih => simp only [List.map_cons, List.sum_cons]; linear_combination ih
  rw [hexp]
  nlinarith

/-- Training returns a tree when the loss has one non-negative second derivative per row and either the regulariser or all second derivatives are positive. -/
theorem reg_training_succeeds {env : TreeEnv K} {t : RegressionTree K} {s : Sample K} (ht : RegOk env t s) (hrows : 0 < s.nSample) {pred g h : List K}
    (hd : Derivs t s pred g h) (hreg : Regular t.lambdaL2 h (List.range s.nSample)) : ∃ tree, t.produce env s pred = .ok tree := by
  obtain ⟨node, hn⟩ := rfullTree_ok ht hd.2.2.1 hd.2.2.2 t.maxDepth (List.range s.nSample) (by simpa using hrows.ne') (fun i hi => List.mem_range.mp hi) hreg
  unfold RegressionTree.produce
  rw [hd.1, hd.2.1, ht.size]
  simp only [hn]
  exact ⟨_, rfl⟩

/-- Both losses of the crate train without panic with a positive regulariser; the squared loss also without. -/
theorem reg_training_succeeds_losses {env : TreeEnv K} {t : RegressionTree K} {s : Sample K} (ht : RegOk env t s) (hrows : 0 < s.nSample) (l : GBMLoss)
    (hl : t.loss = l.toLossFn) (hlam : 0 < t.lambdaL2 ∨ (t.lambdaL2 = 0 ∧ l = .L2)) {pred : List K} (hp : pred.length = s.nSample) :
    ∃ tree, t.produce env s pred = .ok tree := by
  cases l with
  | L1 =>
    rcases hlam with hlam | ⟨_, h⟩
    · refine reg_training_succeeds ht hrows (l1_derivs ht.sample hl hp) ⟨hlam.le, fun i hi => ?_, Or.inl hlam⟩
      simp [List.getD, List.mem_range.mp hi]
    · cases h
  | L2 =>
    refine reg_training_succeeds ht hrows (l2_derivs ht.sample hl hp) ⟨?_, fun i hi => ?_, Or.inr fun i hi => ?_⟩
    · rcases hlam with h | ⟨h, _⟩
      · exact h.le
      · exact h.ge
    · simp [List.getD, List.mem_range.mp hi]
    · simp [List.getD, List.mem_range.mp hi]

/-- The absolute loss without a regulariser: every leaf is a quotient by zero. -/
theorem reg_l1_needs_lambda {env : TreeEnv K} {t : RegressionTree K} {s : Sample K} (hs : SampleOk s) (hn : t.nSample = s.nSample)
    (hl : t.loss = GBMLoss.L1.toLossFn) (hlam : t.lambdaL2 = 0) {pred : List K} (hp : pred.length = s.nSample) :
    t.produce env s pred = .error .nonFinite := by
  obtain ⟨d1, d2, d3, d4⟩ := l1_derivs hs hl hp
  unfold RegressionTree.produce
  rw [d1, d2, hn]
  simp only
  have : ∀ d, RegressionTree.fullTree env t s (List.zipWith (fun y p => signum (y - p)) s.target pred) (List.replicate s.nSample 0) d (List.range s.nSample) = .error .nonFinite := by
    intro d
    have hp : predictionAndLoss (List.range s.nSample) (List.zipWith (fun y p => signum (y - p)) s.target pred) (List.replicate s.nSample 0) t.lambdaL2 = .error .nonFinite := by
      unfold predictionAndLoss
      rw [sumAt_ok (fun i hi => by rw [d3]; exact List.mem_range.mp hi), sumAt_ok (fun i hi => by rw [d4]; exact List.mem_range.mp hi)]
      simp only
      rw [if_pos]
      rw [hlam, add_zero]
      apply List.sum_eq_zero
      intro v hv
      obtain ⟨i, hi, rfl⟩ := List.mem_map.mp hv
      simp [List.getD, List.mem_range.mp hi]
    cases d <;> · unfold RegressionTree.fullTree; rw [hp]
  rw [this]; rfl

/-! ## The builder -/

/-- The bins of a regression-tree builder are those a decision-tree builder with the same settings computes. -/
def asTreeBuilder (b : RegressionTreeBuilder K) : DecisionTreeBuilder K := { sample := b.sample, nBins := b.nBins, criterion := .entropy, maxDepth := b.maxDepth }

theorem reg_cut_eq (env : TreeEnv K) (b : RegressionTreeBuilder K) :
    RegressionTreeBuilder.cutFeature env b = DecisionTreeBuilder.cutFeature env (asTreeBuilder b) := rfl

/-- C42/C72: a builder with a loss and a positive number of bins for every column builds a learner whose bins tile the whole range for every column, unless
some column asks for at least two bins of width below `10⁻⁹`; depth, regulariser and loss are passed on. -/
theorem reg_build_ok {env : TreeEnv K} (h0 : env.fmin < 0 ∧ 0 < env.fmax) (b : RegressionTreeBuilder K) (hs : SampleOk b.sample)
    (hr : 0 < b.sample.nSample) (hfe : b.sample.features ≠ []) {l : LossFn K} (hl : b.loss = some l)
    (hb : ∀ f ∈ b.sample.features, ∀ v, ValueOf b.sample.nSample f v → env.fmin + 1 / 1000 < v ∧ v + 1 / 1000 < env.fmax)
    (hn : ∀ f ∈ b.sample.features, ∃ n lo hi, HMap.get? b.nBins f.name = some n ∧ 0 < n ∧ IsRange b.sample.nSample f lo hi ∧
      (n = 1 ∨ 1 / 10 ^ 9 ≤ binWidth lo hi n)) :
    ∃ t, b.build env = .ok t ∧ t.loss = l ∧ t.lambdaL2 = b.lambdaL2 ∧ t.maxDepth = b.maxDepth ∧ RegOk env t b.sample ∧
      ∀ f ∈ b.sample.features, ∀ bins, HMap.get? t.bins f.name = some bins → some bins.length = HMap.get? b.nBins f.name := by
  obtain ⟨t, t1, _, _, t4⟩ := build_ok h0 (asTreeBuilder b) hs hr hb hn
  unfold DecisionTreeBuilder.build at t1
  cases hm : Sample.mapAll (DecisionTreeBuilder.cutFeature env (asTreeBuilder b)) (asTreeBuilder b).sample.features with
  | error e => rw [hm] at t1; cases t1
  | ok bins =>
    rw [hm] at t1
    simp only [Except.ok.injEq] at t1
    subst t1
    have hm' : Sample.mapAll (RegressionTreeBuilder.cutFeature env b) b.sample.features = .ok bins := hm
    refine ⟨⟨HMap.collect bins, b.maxDepth, b.sample.nSample, b.lambdaL2, l⟩, ?_, rfl, rfl, rfl, ?_, ?_⟩
    · unfold RegressionTreeBuilder.build
      rw [hm']
      simp only [hl]
    · refine ⟨h0, hs, rfl, hfe, fun f hf => ?_, fun f hf i hi => ?_⟩
      · obtain ⟨bins', c1, _, c3⟩ := t4 f hf
        exact ⟨bins', c1, c3⟩
      · have := hb f hf (f.val i) ⟨i, hi, Feature.index_val (hs.columns f hf) hi⟩
        have he : (0 : K) < 1 / 1000 := by positivity
        constructor <;> linarith [this.1, this.2]
    · intro f hf bins' hbins
      obtain ⟨bins'', c1, c2, _⟩ := t4 f hf
      have hcc : HMap.get? (HMap.collect bins) f.name = some bins'' := c1
      rw [hcc, Option.some.injEq] at hbins
      rw [← hbins]; exact c2

/-- The default settings of a new builder: distinct values (at most 255) bins per column, depth 2, regulariser 1/100. -/
theorem reg_default_trains {env : TreeEnv K} (h0 : env.fmin < 0 ∧ 0 < env.fmax) {s : Sample K} (hs : SampleOk s) (hfe : s.features ≠ []) (hr : 0 < s.nSample)
    (hb : ∀ f ∈ s.features, ∀ v, ValueOf s.nSample f v → env.fmin + 1 / 1000 < v ∧ v + 1 / 1000 < env.fmax)
    (hw : ∀ f ∈ s.features, ∀ lo hi, IsRange s.nSample f lo hi →
      (min f.distinctValueCount 255 = 1 ∨ 1 / 10 ^ 9 ≤ binWidth lo hi (min f.distinctValueCount 255)))
    (l : GBMLoss) :
    ∃ t, ((RegressionTreeBuilder.new s).setLoss l.toLossFn).build env = .ok t ∧ t.maxDepth = 2 ∧ t.lambdaL2 = 1 / 100 ∧
      ∀ pred, pred.length = s.nSample → ∃ tree, t.produce env s pred = .ok tree ∧ ∀ s' i, (path s' i tree).length ≤ 1 := by
  obtain ⟨t, t1, t2, t3, t4, t5, _⟩ := reg_build_ok h0 ((RegressionTreeBuilder.new s).setLoss l.toLossFn) hs hr hfe rfl hb (by
    intro f hf
    obtain ⟨n1, n2⟩ := new_builder_bins hs hr hf
    obtain ⟨lo, hi, hlo⟩ := exists_range hr (hs.columns f hf)
    exact ⟨_, lo, hi, n1, n2, hlo, hw f hf lo hi hlo⟩)
  have hlam : t.lambdaL2 = 1 / 100 := t3
  have hdep : t.maxDepth = 2 := t4
  refine ⟨t, t1, hdep, hlam, fun pred hp => ?_⟩
  obtain ⟨tree, e⟩ := reg_training_succeeds_losses (t := t) (env := env) t5 hr l t2 (Or.inl (by rw [hlam]; positivity)) hp
  refine ⟨tree, e, fun s' i => ?_⟩
  cases l with
  | L1 => exact (reg_tree_depth hs t5.size (l1_derivs hs t2 hp) e s' i).trans (by rw [hdep])
  | L2 => exact (reg_tree_depth hs t5.size (l2_derivs hs t2 hp) e s' i).trans (by rw [hdep])

/-- Building without a loss panics, whatever else was set. -/
theorem reg_build_needs_loss {env : TreeEnv K} (b : RegressionTreeBuilder K) (h : b.loss = none) : ∃ e, b.build env = .error e := by
  unfold RegressionTreeBuilder.build
  split
  · exact ⟨_, rfl⟩
  · rw [h]; exact ⟨_, rfl⟩

/-- The setters: a depth of zero and an unknown column name are rejected, every other call changes one setting. -/
theorem reg_setters (b : RegressionTreeBuilder K) (d n : Nat) (name : String) :
    (b.setMaxDepth d = if 0 < d then .ok { b with maxDepth := d } else .error .assertion) ∧
    ((∃ b', b.setNbins name n = .ok b') ↔ (HMap.get? b.nBins name).isSome) ∧
    (∀ b', b.setNbins name n = .ok b' → HMap.get? b'.nBins name = some n ∧ ∀ other, other ≠ name → HMap.get? b'.nBins other = HMap.get? b.nBins other) := by
  refine ⟨rfl, ?_, ?_⟩
  · unfold RegressionTreeBuilder.setNbins
    cases HMap.get? b.nBins name <;> simp
  · intro b' e
    unfold RegressionTreeBuilder.setNbins at e
    cases h : HMap.get? b.nBins name with
    | none => rw [h] at e; cases e
    | some v =>
      rw [h] at e
      simp only [Except.ok.injEq] at e
      subst e
      exact ⟨by simp [HMap.get?_insert], fun other ho => by simp [HMap.get?_insert, ho.symm]⟩

/-! ## What does not hold -/

/-- A tree whose gradients sum to zero is the constant zero, whether or not a split would help. -/
theorem reg_zero_gradient_leaf {env : TreeEnv K} {t : RegressionTree K} {s : Sample K} (hn : t.nSample = s.nSample) {pred g h : List K}
    (hd : Derivs t s pred g h) (h0 : weightOf g (List.range s.nSample) = 0) (hH : weightOf h (List.range s.nSample) + t.lambdaL2 ≠ 0) :
    t.produce env s pred = .ok (.leaf 0) := by
  obtain ⟨d1, d2, d3, d4⟩ := hd
  unfold RegressionTree.produce
  rw [d1, d2, hn]
  simp only
  have hp : predictionAndLoss (List.range s.nSample) g h t.lambdaL2 = .ok (0, 0) := by
    rw [predictionAndLoss_ok (fun i hi => by rw [d3]; exact List.mem_range.mp hi) (fun i hi => by rw [d4]; exact List.mem_range.mp hi) hH, h0]
    simp
  have : ∀ d, RegressionTree.fullTree env t s g h d (List.range s.nSample) = .ok (.leaf 0 0) := by
    intro d
    cases d <;> simp [RegressionTree.fullTree, hp]
  rw [this]; rfl

theorem weightOf_range (v : List K) {n : Nat} (h : v.length = n) : weightOf v (List.range n) = v.sum := by
  subst h
  unfold weightOf
  congr 1
  apply List.ext_getElem
  · simp
  · intro i h1 h2
    simp at h1
    simp [List.getD, h1]

/-- Gradient boosting with the squared loss and regression trees panics in its first round whenever the targets sum to zero, for every depth and every
sample: the tree is the constant zero, and the coefficient search divides by the sum of its predictions. -/
theorem gbm_l2_tree_centred_panics {X H : Type*} [Regressor H X K] {env : TreeEnv K} {t : RegressionTree K} {s : Sample K} (hs : SampleOk s)
    (hn : t.nSample = s.nSample) (hr : 0 < s.nSample) (hl : t.loss = GBMLoss.L2.toLossFn) (hlam : 0 ≤ t.lambdaL2) (hc : s.target.sum = 0)
    (S : Examples X K) (hS : S.length = s.nSample) (wl : WeakLearner K H)
    (hwl : ∀ p tree, t.produce env s p = .ok tree → ∀ i, ∀ hi : i < S.length, tree.confidence s i = .ok (Regressor.pred (wl 1 p) (S[i]).1))
    (m : GBM K H) (hm : 1 ≤ m.maxIter) :
    ∃ m', (GBM.booster GBMLoss.L2.bestCoefficient S).preprocess m wl = .ok m' ∧
      (GBM.booster GBMLoss.L2.bestCoefficient S).boost m' wl 1 = .error .assertion := by
  refine ⟨_, rfl, ?_⟩
  have hpl : (List.replicate S.length (0 : K)).length = s.nSample := by simp [hS]
  have hd := l2_derivs hs hl hpl
  have e := reg_zero_gradient_leaf (env := env) hn hd (by
      rw [weightOf_range _ hd.2.2.1]
      have hz : List.zipWith (fun y p => p - y) s.target (List.replicate S.length (0 : K)) = s.target.map (fun y => -y) := by
        apply List.ext_getElem
        · simp [hS, hs.labels]
        · intro i h1 h2; simp
      rw [hz]
      have : (s.target.map (fun y => -y)).sum = -s.target.sum := by
        generalize s.target = l
        induction l with
        | nil => simp
        | cons a l ih => simp only [List.map_cons, List.sum_cons, ih]; ring
      rw [this, hc, neg_zero]) (by
      rw [weightOf_range _ (by simp)]
      have : (0 : K) < s.nSample := by exact_mod_cast hr
      simp only [List.sum_replicate, nsmul_eq_mul, mul_one]
      have : 0 < (s.nSample : K) + t.lambdaL2 := by linarith
      exact this.ne')
  apply gbm_l2_panics
  · exact hm
  · apply List.sum_eq_zero
    intro v hv
    obtain ⟨x, hx, rfl⟩ := List.mem_map.mp hv
    obtain ⟨i, hi, rfl⟩ := List.mem_iff_getElem.mp hx
    have := hwl _ _ e i hi
    simp only [TreeNode.confidence, Except.ok.injEq] at this
    exact this.symm

/-- With the absolute loss the tree moves every prediction away from the targets: if all the targets are above the predictions, all the values of the tree
are negative (the gradient of the absolute loss has the wrong sign). -/
theorem l1_tree_wrong_direction {env : TreeEnv K} {t : RegressionTree K} {s : Sample K} (hs : SampleOk s) (hn : t.nSample = s.nSample)
    (hl : t.loss = GBMLoss.L1.toLossFn) (hlam : 0 < t.lambdaL2) {pred : List K} (hp : pred.length = s.nSample)
    (habove : ∀ i < s.nSample, pred.getD i 0 < s.target.getD i 0) {tree : TreeNode K} (e : t.produce env s pred = .ok tree) :
    ∀ i < s.nSample, ∃ v, tree.confidence s i = .ok v ∧ v < 0 := by
  intro i hi
  have hd := l1_derivs hs hl hp
  obtain ⟨v, h1, h2, _⟩ := reg_leaf_optimal hs hn hd ⟨hlam.le, fun j hj => by simp [List.getD, List.mem_range.mp hj], Or.inl hlam⟩ e hi
  refine ⟨v, h1, ?_⟩
  set leaf := (List.range s.nSample).filter (fun j => path s j tree = path s i tree) with hleaf
  have hlt : ∀ j ∈ leaf, j < s.nSample := fun j hj => List.mem_range.mp (List.mem_filter.mp hj).1
  have hG : 0 < weightOf (List.zipWith (fun y p => signum (y - p)) s.target pred) leaf := by
    apply weightOf_pos
    · apply List.ne_nil_of_mem (a := i)
      exact List.mem_filter.mpr ⟨List.mem_range.mpr hi, by simp⟩
    · intro j hj
      rw [getD_zipWith _ _ _ 0 0 j (by rw [hs.labels]; exact hlt j hj) (by rw [hp]; exact hlt j hj)]
      have := habove j (hlt j hj)
      unfold signum
      rw [if_neg (by rw [not_lt, sub_nonneg]; exact this.le)]
      exact one_pos
  have hH : weightOf (List.replicate s.nSample (0 : K)) leaf = 0 := by
    apply List.sum_eq_zero
    intro v hv
    obtain ⟨j, hj, rfl⟩ := List.mem_map.mp hv
    simp [List.getD, hlt j hj]
  rw [h2, hH, zero_add]
  exact div_neg_of_neg_of_pos (by linarith) hlam

/-! ## Worked examples -/

def exReg : RegressionTree ℚ :=
  { bins := [("x", [⟨-1000, 3 / 4⟩, ⟨3 / 4, 3 / 2⟩, ⟨3 / 2, 9 / 4⟩, ⟨9 / 4, 1000⟩])], maxDepth := 2, nSample := 4, lambdaL2 := 1, loss := GBMLoss.L2.toLossFn }

/-- The example satisfies the hypotheses of the theorems above. -/
theorem exReg_ok : RegOk exEnv exReg exTreeSample := by
  have h := exTree_ok
  exact ⟨by norm_num [exEnv], h.sample, rfl, h.columns, h.bins, h.values⟩

/-- One test, two leaves: the rows below `9/4` and the last one. -/
example : exReg.produce exEnv exTreeSample [0, 0, 0, 5] = .ok (.branch ⟨"x", 9 / 4⟩ (.leaf (-1 / 4)) (.leaf (-3))) := by decide +kernel

/-- `max_depth = 1` gives a constant. -/
example : ({ exReg with maxDepth := 1 } : RegressionTree ℚ).produce exEnv exTreeSample [0, 0, 0, 5] = .ok (.leaf (-7 / 5)) := by decide +kernel

/-- Targets that sum to zero and that one test would fit perfectly: the tree is the constant zero. -/
theorem reg_zero_gradient_example :
    ({ exReg with maxDepth := 5, lambdaL2 := 0 } : RegressionTree ℚ).produce exEnv { exTreeSample with target := [-1, -1, 1, 1] } [0, 0, 0, 0] = .ok (.leaf 0) := by
  decide +kernel

/-- Eight rows, of which the four in the middle bin have gradients that cancel. -/
def exCancel : Sample ℚ :=
  { nameToIndex := [("x", 0)], features := [.dense ⟨"x", [0, 6 / 5, 13 / 10, 17 / 10, 9 / 5, 5 / 2, 27 / 10, 3]⟩], target := [-1, 1, 1, -1, -1, 1, 1, 1], nSample := 8, nFeature := 1 }

def exCancelTree : RegressionTree ℚ :=
  { bins := [("x", [⟨-1000, 1⟩, ⟨1, 2⟩, ⟨2, 1000⟩])], maxDepth := 2, nSample := 8, lambdaL2 := 1, loss := GBMLoss.L1.toLossFn }

example : Bins.cut exEnv (Feature.dense ⟨"x", [0, 6 / 5, 13 / 10, 17 / 10, 9 / 5, 5 / 2, 27 / 10, 3]⟩) 3 = .ok [⟨-1000, 1⟩, ⟨1, 2⟩, ⟨2, 1000⟩] := by decide +kernel

/-- With the absolute loss (zero second derivatives) the split chosen can be worse than no split: bins whose gradients cancel are dropped, and the threshold
is then placed inside them. -/
theorem reg_l1_split_worse :
    ∃ g h tree, Derivs exCancelTree exCancel (List.replicate 8 0) g h ∧ exCancelTree.produce exEnv exCancel (List.replicate 8 0) = .ok tree ∧
      ∃ f : Nat → ℚ, (∀ i < 8, tree.confidence exCancel i = .ok (f i)) ∧
        ∃ v, leafObjective 1 g h (List.range 8) v < treeObjective 1 g h (List.range 8) f tree := by
  refine ⟨[-1, 1, 1, -1, -1, 1, 1, 1], List.replicate 8 0, .branch ⟨"x", 3 / 2⟩ (.leaf (-1)) (.leaf (-1)), by unfold Derivs; decide +kernel, by decide +kernel,
    fun _ => -1, by decide +kernel, -2, by decide +kernel⟩

end Miniboosts.Props
