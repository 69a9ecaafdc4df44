import Verif.Lemmas.RegSplit

set_option linter.unusedSectionVars false

/-! # Growing regression trees -/

namespace Miniboosts

open Spec

variable {K : Type*} [Field K] [LinearOrder K] [IsStrictOrderedRing K]

theorem sumAt_ok {v : List K} {idx : List Nat} (h : ∀ i ∈ idx, i < v.length) : sumAt v idx = .ok (weightOf v idx) := by
  induction idx with
  | nil => rfl
  | cons i idx ih =>
    unfold sumAt
    rw [vecAt_ok (h i (by simp)) 0, ih (fun j hj => h j (List.mem_cons_of_mem _ hj))]
    simp [Except.map, weightOf]

/-- Value and loss of a leaf fitted on the rows. -/
def RLeaf (lam : K) (g h : List K) (idx : List Nat) (p l : K) : Prop :=
  weightOf h idx + lam ≠ 0 ∧ p = -weightOf g idx / (weightOf h idx + lam) ∧ l = -(1 / 2) * weightOf g idx ^ 2 / (weightOf h idx + lam)

/-- The tree was grown on the rows, with at most the given depth. -/
def RGrown (env : TreeEnv K) (t : RegressionTree K) (s : Sample K) (g h : List K) : Nat → List Nat → RegTrainNode K → Prop
  | _, idx, .leaf p l => RLeaf t.lambdaL2 g h idx p l
  | d, idx, .branch rule left right p l _ =>
    2 ≤ d ∧ RLeaf t.lambdaL2 g h idx p l ∧ l ≠ 0 ∧
    RegSplit.bestSplit env t.bins s g h idx t.lambdaL2 = .ok (rule.feature, rule.threshold) ∧
    idx.filter (leftOf s rule) ≠ [] ∧ idx.filter (fun i => !leftOf s rule i) ≠ [] ∧
    (∀ i ∈ idx, rule.goesLeft s i = .ok (leftOf s rule i)) ∧
    RGrown env t s g h (d - 1) (idx.filter (leftOf s rule)) left ∧ RGrown env t s g h (d - 1) (idx.filter (fun i => !leftOf s rule i)) right

theorem predictionAndLoss_inv {lam : K} {g h : List K} {idx : List Nat} (hg : ∀ i ∈ idx, i < g.length) (hh : ∀ i ∈ idx, i < h.length) {p l : K}
    (e : predictionAndLoss idx g h lam = .ok (p, l)) : RLeaf lam g h idx p l := by
  unfold predictionAndLoss at e
  rw [sumAt_ok hg, sumAt_ok hh] at e
  simp only at e
  split at e
  · cases e
  · rename_i hz
    simp only [Except.ok.injEq, Prod.mk.injEq] at e
    exact ⟨hz, e.1.symm, e.2.symm⟩

theorem predictionAndLoss_ok {lam : K} {g h : List K} {idx : List Nat} (hg : ∀ i ∈ idx, i < g.length) (hh : ∀ i ∈ idx, i < h.length)
    (hz : weightOf h idx + lam ≠ 0) : predictionAndLoss idx g h lam =
      .ok (-weightOf g idx / (weightOf h idx + lam), -(1 / 2) * weightOf g idx ^ 2 / (weightOf h idx + lam)) := by
  unfold predictionAndLoss
  rw [sumAt_ok hg, sumAt_ok hh]
  simp only [if_neg hz]

theorem rfullTree_grown {env : TreeEnv K} {t : RegressionTree K} {s : Sample K} (hs : SampleOk s) {g h : List K}
    (hg : g.length = s.nSample) (hh : h.length = s.nSample) : ∀ (depth : Nat) (idx : List Nat) (node : RegTrainNode K),
      (∀ i ∈ idx, i < s.nSample) → RegressionTree.fullTree env t s g h depth idx = .ok node → RGrown env t s g h depth idx node := by
  intro depth
  induction depth with
  | zero =>
    intro idx node hr e
    unfold RegressionTree.fullTree at e
    cases hp : predictionAndLoss idx g h t.lambdaL2 with
    | error er => rw [hp] at e; cases e
    | ok pl =>
      obtain ⟨p, l⟩ := pl
      rw [hp] at e
      simp only [Except.ok.injEq] at e
      subst e
      exact predictionAndLoss_inv (by simpa [hg] using hr) (by simpa [hh] using hr) hp
  | succ depth ih =>
    intro idx node hr e
    unfold RegressionTree.fullTree at e
    cases hp : predictionAndLoss idx g h t.lambdaL2 with
    | error er => rw [hp] at e; cases e
    | ok pl =>
      obtain ⟨p, l⟩ := pl
      rw [hp] at e
      simp only at e
      have hleaf := predictionAndLoss_inv (by simpa [hg] using hr) (by simpa [hh] using hr) hp
      split at e
      · simp only [Except.ok.injEq] at e
        subst e
        exact hleaf
      · rename_i hld
        rw [not_or] at hld
        cases hb : RegSplit.bestSplit env t.bins s g h idx t.lambdaL2 with
        | error er => rw [hb] at e; cases e
        | ok q =>
          obtain ⟨feature, threshold⟩ := q
          rw [hb] at e
          simp only at e
          cases hsp : DecisionTree.splitRows ⟨feature, threshold⟩ s idx with
          | error er => rw [hsp] at e; cases e
          | ok q =>
            obtain ⟨li, ri⟩ := q
            rw [hsp] at e
            simp only at e
            obtain ⟨s1, s2, s3⟩ := splitRows_spec hs ⟨feature, threshold⟩ idx hr li ri hsp
            split at e
            · simp only [Except.ok.injEq] at e
              subst e
              exact hleaf
            · rename_i hlr
              rw [not_or] at hlr
              cases hL : RegressionTree.fullTree env t s g h depth li with
              | error er => rw [hL] at e; cases e
              | ok ltree =>
                rw [hL] at e
                simp only at e
                cases hR : RegressionTree.fullTree env t s g h depth ri with
                | error er => rw [hR] at e; cases e
                | ok rtree =>
                  rw [hR] at e
                  simp only [Except.ok.injEq] at e
                  subst e
                  rw [s1] at hL hlr
                  rw [s2] at hR hlr
                  refine ⟨by omega, hleaf, hld.1, hb, hlr.1, hlr.2, s3, ?_, ?_⟩
                  · exact ih _ _ (fun i hi => hr i (List.mem_filter.mp hi).1) hL
                  · exact ih _ _ (fun i hi => hr i (List.mem_filter.mp hi).1) hR

theorem produce_rgrown {env : TreeEnv K} {t : RegressionTree K} {s : Sample K} (hs : SampleOk s) (hn : t.nSample = s.nSample) {pred g h : List K}
    (hd : Derivs t s pred g h) {tree : TreeNode K} (e : t.produce env s pred = .ok tree) :
    ∃ node, RGrown env t s g h t.maxDepth (List.range s.nSample) node ∧ tree = node.toNode := by
  unfold RegressionTree.produce at e
  rw [hd.1, hd.2.1, hn] at e
  simp only at e
  cases hf : RegressionTree.fullTree env t s g h t.maxDepth (List.range s.nSample) with
  | error er => rw [hf] at e; cases e
  | ok node =>
    rw [hf] at e
    simp only [Except.map, Except.ok.injEq] at e
    exact ⟨node, rfullTree_grown hs hd.2.2.1 hd.2.2.2 _ _ _ (fun i hi => List.mem_range.mp hi) hf, e.symm⟩

/-! ## Values -/

theorem rgrown_value {env : TreeEnv K} {t : RegressionTree K} {s : Sample K} {g h : List K} (node : RegTrainNode K) : ∀ {d : Nat} {idx : List Nat},
    RGrown env t s g h d idx node → ∀ i ∈ idx, node.toNode.confidence s i = .ok (evalAt s i node.toNode) := by
  induction node with
  | leaf p l => intro d idx _ i _; rfl
  | branch rule left right p l n ihl ihr =>
    intro d idx hgr i hi
    obtain ⟨_, _, _, _, _, _, h7, h8, h9⟩ := hgr
    simp only [RegTrainNode.toNode, TreeNode.confidence, h7 i hi, evalAt]
    cases hb : leftOf s rule i with
    | true => exact ihl h8 i (List.mem_filter.mpr ⟨hi, hb⟩)
    | false => exact ihr h9 i (List.mem_filter.mpr ⟨hi, by simp [hb]⟩)

theorem rgrown_leaf {env : TreeEnv K} {t : RegressionTree K} {s : Sample K} {g h : List K} (node : RegTrainNode K) : ∀ {d : Nat} {idx : List Nat},
    RGrown env t s g h d idx node → ∀ i ∈ idx, ∃ l, RLeaf t.lambdaL2 g h (idx.filter (fun j => path s j node.toNode = path s i node.toNode)) (evalAt s i node.toNode) l := by
  induction node with
  | leaf p l =>
    intro d idx hgr i hi
    simp only [RegTrainNode.toNode, path, decide_true, List.filter_true, evalAt]
    exact ⟨l, hgr⟩
  | branch rule left right p l n ihl ihr =>
    intro d idx hgr i hi
    obtain ⟨_, _, _, _, _, _, h7, h8, h9⟩ := hgr
    cases hb : leftOf s rule i with
    | true =>
      obtain ⟨l', this⟩ := ihl h8 i (List.mem_filter.mpr ⟨hi, hb⟩)
      rw [List.filter_filter] at this
      have e : idx.filter (fun j => decide (path s j (RegTrainNode.toNode (.branch rule left right p l n))
          = path s i (RegTrainNode.toNode (.branch rule left right p l n)))) =
          idx.filter (fun j => decide (path s j left.toNode = path s i left.toNode) && leftOf s rule j) := by
        apply List.filter_congr
        intro j _
        simp only [RegTrainNode.toNode, path_branch, hb, if_true]
        cases hj : leftOf s rule j <;> simp [hj]
      rw [e]
      exact ⟨l', by simpa only [RegTrainNode.toNode, evalAt, hb, if_true] using this⟩
    | false =>
      obtain ⟨l', this⟩ := ihr h9 i (List.mem_filter.mpr ⟨hi, by simp [hb]⟩)
      rw [List.filter_filter] at this
      have e : idx.filter (fun j => decide (path s j (RegTrainNode.toNode (.branch rule left right p l n))
          = path s i (RegTrainNode.toNode (.branch rule left right p l n)))) =
          idx.filter (fun j => decide (path s j right.toNode = path s i right.toNode) && !leftOf s rule j) := by
        apply List.filter_congr
        intro j _
        simp only [RegTrainNode.toNode, path_branch, hb, Bool.false_eq_true, if_false]
        cases hj : leftOf s rule j <;> simp [hj]
      rw [e]
      exact ⟨l', by simpa only [RegTrainNode.toNode, evalAt, hb, Bool.false_eq_true, if_false] using this⟩

/-! ## The objective -/

theorem leafObjective_eq (lam : K) (g h : List K) (idx : List Nat) (v : K) :
    leafObjective lam g h idx v = weightOf g idx * v + (weightOf h idx + lam) * v ^ 2 / 2 := by
  unfold leafObjective weightOf
  induction idx with
  | nil => simp
  | cons i idx ih =>
    simp only [List.map_cons, List.sum_cons]
    linear_combination ih

/-- The minimum of the second-order objective of some rows. -/
theorem leafObjective_ge {lam : K} {g h : List K} {idx : List Nat} (hp : 0 < weightOf h idx + lam) (v : K) :
    -(1 / 2) * weightOf g idx ^ 2 / (weightOf h idx + lam) ≤ leafObjective lam g h idx v := by
  rw [leafObjective_eq, div_le_iff₀ hp]
  nlinarith [sq_nonneg (weightOf g idx + (weightOf h idx + lam) * v)]

theorem leafObjective_at {lam : K} {g h : List K} {idx : List Nat} {p l : K} (hl : RLeaf lam g h idx p l) :
    leafObjective lam g h idx p = l := by
  obtain ⟨h1, rfl, rfl⟩ := hl
  rw [leafObjective_eq]
  field_simp
  ring

theorem treeObjective_branch (lam : K) (g h : List K) (s : Sample K) (idx : List Nat) (rule : Splitter K) (left right : TreeNode K) :
    treeObjective lam g h idx (fun i => evalAt s i (.branch rule left right)) (.branch rule left right) =
      treeObjective lam g h (idx.filter (leftOf s rule)) (fun i => evalAt s i left) left
        + treeObjective lam g h (idx.filter (fun i => !leftOf s rule i)) (fun i => evalAt s i right) right := by
  unfold treeObjective
  rw [leafSquares, ← sum_filter_add (leftOf s rule) _ idx]
  have e1 : (idx.filter (leftOf s rule)).map (fun i => g.getD i 0 * evalAt s i (.branch rule left right) + h.getD i 0 * evalAt s i (.branch rule left right) ^ 2 / 2)
      = (idx.filter (leftOf s rule)).map (fun i => g.getD i 0 * evalAt s i left + h.getD i 0 * evalAt s i left ^ 2 / 2) := by
    apply List.map_congr_left
    intro i hi
    have := (List.mem_filter.mp hi).2
    simp only [evalAt, this, if_true]
  have e2 : (idx.filter (fun i => !leftOf s rule i)).map (fun i => g.getD i 0 * evalAt s i (.branch rule left right) + h.getD i 0 * evalAt s i (.branch rule left right) ^ 2 / 2)
      = (idx.filter (fun i => !leftOf s rule i)).map (fun i => g.getD i 0 * evalAt s i right + h.getD i 0 * evalAt s i right ^ 2 / 2) := by
    apply List.map_congr_left
    intro i hi
    have := (List.mem_filter.mp hi).2
    rw [Bool.not_eq_true'] at this
    simp only [evalAt, this, Bool.false_eq_true, if_false]
  rw [e1, e2]
  ring

theorem filter_not (s : Sample K) (rule : Splitter K) (idx : List Nat) :
    idx.filter (fun i => ¬ cell s rule.feature i < rule.threshold) = idx.filter (fun i => !leftOf s rule i) := by
  apply List.filter_congr
  intro i _
  unfold leftOf
  by_cases h : cell s rule.feature i < rule.threshold <;> simp [h]

theorem gain_filter (lam : K) (g h : List K) (s : Sample K) (idx : List Nat) (rule : Splitter K) :
    gain lam g h s idx rule.feature rule.threshold =
      weightOf g (idx.filter (leftOf s rule)) ^ 2 / (weightOf h (idx.filter (leftOf s rule)) + lam)
      + weightOf g (idx.filter (fun i => !leftOf s rule i)) ^ 2 / (weightOf h (idx.filter (fun i => !leftOf s rule i)) + lam) := by
  unfold gain
  rw [filter_not]
  rfl

theorem rgrown_objective {env : TreeEnv K} {t : RegressionTree K} {s : Sample K} (ht : RegOk env t s) (hlam : 0 ≤ t.lambdaL2) {g h : List K}
    (hg : g.length = s.nSample) (hh : h.length = s.nSample) (node : RegTrainNode K) : ∀ {d : Nat} {idx : List Nat}, idx ≠ [] →
    (∀ i ∈ idx, i < s.nSample ∧ 0 < h.getD i 0) → RGrown env t s g h d idx node →
    treeObjective t.lambdaL2 g h idx (fun i => evalAt s i node.toNode) node.toNode
      ≤ -(1 / 2) * weightOf g idx ^ 2 / (weightOf h idx + t.lambdaL2) := by
  induction node with
  | leaf p l =>
    intro d idx hne hidx hgr
    have h1 := leafObjective_at hgr
    have h2 : l = -(1 / 2) * weightOf g idx ^ 2 / (weightOf h idx + t.lambdaL2) := hgr.2.2
    rw [← h2, ← h1]
    exact le_refl _
  | branch rule left right p l n ihl ihr =>
    intro d idx hne hidx hgr
    obtain ⟨_, _, _, h4, h5, h6, _, h8, h9⟩ := hgr
    have il := ihl h5 (fun i hi => hidx i (List.mem_filter.mp hi).1) h8
    have ir := ihr h6 (fun i hi => hidx i (List.mem_filter.mp hi).1) h9
    obtain ⟨f, hf, th, b1, _, _, b4⟩ := rbestSplit_ok ht hlam hg hh hne hidx
    rw [h4, Except.ok.injEq, Prod.mk.injEq] at b1
    rw [← b1.1, ← b1.2, gain_filter] at b4
    simp only [RegTrainNode.toNode]
    rw [treeObjective_branch]
    have hB : base t.lambdaL2 (fun i => g.getD i 0) (fun i => h.getD i 0) idx = weightOf g idx ^ 2 / (weightOf h idx + t.lambdaL2) := rfl
    rw [hB] at b4
    rw [mul_div_assoc] at il ir ⊢
    linarith

theorem rgrown_tests {env : TreeEnv K} {t : RegressionTree K} {s : Sample K} (ht : RegOk env t s) (hlam : 0 ≤ t.lambdaL2) {g h : List K}
    (hg : g.length = s.nSample) (hh : h.length = s.nSample) (node : RegTrainNode K) : ∀ {d : Nat} {idx : List Nat}, idx ≠ [] →
    (∀ i ∈ idx, i < s.nSample ∧ 0 < h.getD i 0) → RGrown env t s g h d idx node →
    TestsBest t.lambdaL2 g h t.bins s idx node.toNode := by
  induction node with
  | leaf p l => intro d idx _ _ _; trivial
  | branch rule left right p l n ihl ihr =>
    intro d idx hne hidx hgr
    obtain ⟨_, _, _, h4, h5, h6, _, h8, h9⟩ := hgr
    have il := ihl h5 (fun i hi => hidx i (List.mem_filter.mp hi).1) h8
    have ir := ihr h6 (fun i hi => hidx i (List.mem_filter.mp hi).1) h9
    obtain ⟨f, hf, th, b1, b2, b3, _⟩ := rbestSplit_ok ht hlam hg hh hne hidx
    rw [h4, Except.ok.injEq, Prod.mk.injEq] at b1
    rw [← b1.1, ← b1.2] at b2 b3
    simp only [RegTrainNode.toNode, TestsBest]
    rw [filter_not]
    exact ⟨b2, b3, il, ir⟩

/-! ## Training succeeds -/

/-- Enough for finite scores: regularisation, or positive second derivatives. -/
def Regular (lam : K) (h : List K) (rows : List Nat) : Prop :=
  0 ≤ lam ∧ (∀ i ∈ rows, 0 ≤ h.getD i 0) ∧ (0 < lam ∨ ∀ i ∈ rows, 0 < h.getD i 0)

theorem mergeLoop_entries (l : List (Bin K × K × K)) : ∀ (prev : Bin K) (p q : K), 0 ≤ q → (∀ c ∈ l, 0 ≤ c.2.2) →
    ∀ c ∈ RegBins.mergeLoop prev p q l, 0 ≤ c.2.2 := by
  induction l with
  | nil =>
    intro prev p q hq _ c hc
    simp only [RegBins.mergeLoop, List.mem_singleton] at hc
    subst hc; exact hq
  | cons d l ih =>
    obtain ⟨nb, ng, nh⟩ := d
    intro prev p q hq hl c hc
    simp only [RegBins.mergeLoop] at hc
    rcases List.mem_cons.mp hc with rfl | hc
    · exact hq
    · exact ih _ _ _ (hl (nb, ng, nh) (by simp)) (fun c hc => hl c (List.mem_cons_of_mem _ hc)) c hc

theorem removeZero_weak {bins : List (Bin K)} {packed : List (K × K)} (hs : ((bins.zip packed).map (fun p => p.2.1)).sum ≠ 0)
    (hnn : ∀ c ∈ bins.zip packed, 0 ≤ c.2.2) : ∃ out, RegBins.removeZero bins packed = .ok out ∧ ∀ c ∈ out, 0 ≤ c.2.2 := by
  unfold RegBins.removeZero
  generalize bins.zip packed = P at hs hnn
  cases P with
  | nil => simp at hs
  | cons c rest =>
    obtain ⟨b, p, q⟩ := c
    simp only
    have hrest : ∀ c ∈ rest.filter RegBins.nonzero, 0 ≤ c.2.2 := fun c hc => hnn c (List.mem_cons_of_mem _ (List.mem_filter.mp hc).1)
    by_cases hpq : p = 0 ∧ q = 0
    · rw [if_pos hpq]
      cases hf : rest.filter RegBins.nonzero with
      | nil =>
        exfalso
        apply hs
        simp only [List.map_cons, List.sum_cons, hpq.1, zero_add]
        apply List.sum_eq_zero
        intro v hv
        obtain ⟨c, hc, rfl⟩ := List.mem_map.mp hv
        by_contra hz
        have : c ∈ rest.filter RegBins.nonzero := List.mem_filter.mpr ⟨hc, by unfold RegBins.nonzero; simp [hz]⟩
        rw [hf] at this; cases this
      | cons d rest' =>
        obtain ⟨nb, ng, nh⟩ := d
        rw [hf] at hrest
        exact ⟨_, rfl, mergeLoop_entries _ _ _ _ (hrest (nb, ng, nh) (by simp)) (fun c hc => hrest c (List.mem_cons_of_mem _ hc))⟩
    · rw [if_neg hpq]
      exact ⟨_, rfl, mergeLoop_entries _ _ _ _ (hnn (b, p, q) (by simp)) hrest⟩

theorem scan_weak {lam : K} (hlam : 0 < lam) (l : List (Bin K × K × K)) : ∀ (lg lh rg bs bt : K), 0 ≤ lh → (∀ c ∈ l, 0 ≤ c.2.2) →
    ∃ r, RegSplit.scan lam l lg lh rg (l.map (fun p => p.2.2)).sum bs bt = .ok r := by
  induction l with
  | nil => intro lg lh rg bs bt _ _; exact ⟨_, rfl⟩
  | cons c l ih =>
    obtain ⟨b, p, q⟩ := c
    intro lg lh rg bs bt hl hc
    have hq : 0 ≤ q := hc _ (by simp : (b, p, q) ∈ (b, p, q) :: l)
    have hrest : ∀ c ∈ l, 0 ≤ c.2.2 := fun c h => hc c (List.mem_cons_of_mem _ h)
    have hsum : 0 ≤ (l.map (fun p => p.2.2)).sum := by
      apply List.sum_nonneg
      intro v hv
      obtain ⟨c, h, rfl⟩ := List.mem_map.mp hv
      exact hrest c h
    unfold RegSplit.scan
    simp only [List.map_cons, List.sum_cons]
    have e : q + (l.map (fun p => p.2.2)).sum - q = (l.map (fun p => p.2.2)).sum := by ring
    rw [e]
    unfold RegSplit.term
    rw [if_neg (by have : 0 < lh + q + lam := by linarith
                   exact this.ne'), if_neg (by have : 0 < (l.map (fun p => p.2.2)).sum + lam := by linarith
                                               exact this.ne')]
    simp only
    split
    · exact ih _ _ _ _ _ (by linarith) hrest
    · exact ih _ _ _ _ _ (by linarith) hrest

theorem rbestSplit_weak {env : TreeEnv K} {t : RegressionTree K} {s : Sample K} (ht : RegOk env t s) {lam : K} (hlam : 0 < lam) {g h : List K}
    (hg : g.length = s.nSample) (hh : h.length = s.nSample) {idx : List Nat} (hidx : ∀ i ∈ idx, i < s.nSample ∧ 0 ≤ h.getD i 0)
    (hG : weightOf g idx ≠ 0) :
    ∃ f ∈ s.features, ∃ th, RegSplit.bestSplit env t.bins s g h idx lam = .ok (f.name, th) := by
  have step : ∀ f ∈ s.features, ∃ r : K × String × K, RegSplit.featureSplit env t.bins g h lam idx f = .ok r ∧ r.2.1 = f.name := by
    intro f hf
    obtain ⟨bins, hb, htl⟩ := ht.bins f hf
    obtain ⟨packed, e1, e2⟩ := rpackLoop_ok htl (ht.sample.columns f hf) hg hh idx
      (fun i hi => ⟨(hidx i hi).1, ht.values f hf i (hidx i hi).1⟩) [] _ (rcells_start _ _ _ bins)
    rw [List.nil_append] at e2
    have hrep := rrep_of_cells htl e2 (fun i hi => (ht.values f hf i (hidx i hi).1).2)
    have hsums := (rrep_sums _ _ hrep).1
    have hall : ∀ i ∈ idx, ¬ f.val i < env.fmin := fun i hi => not_lt.mpr (ht.values f hf i (hidx i hi).1).1
    rw [(lo_none hall (fun i => g.getD i 0)).2] at hsums
    have hnn : ∀ c ∈ bins.zip packed, 0 ≤ c.2.2 := by
      intro c hc
      have key : ∀ (l : List (Bin K × K × K)) a, RRep f.val (fun i => g.getD i 0) (fun i => h.getD i 0) idx a l → ∀ c ∈ l, 0 ≤ c.2.2 := by
        intro l
        induction l with
        | nil => intro a _ c hc; cases hc
        | cons d l ih =>
          obtain ⟨b, p, q⟩ := d
          intro a hr c hc
          rcases List.mem_cons.mp hc with rfl | hc
          · simp only
            rw [hr.2.2.2.1]
            apply List.sum_nonneg
            intro v hv
            obtain ⟨i, hi, rfl⟩ := List.mem_map.mp hv
            split
            · exact (hidx i hi).2
            · exact le_refl _
          · exact ih _ hr.2.2.2.2 c hc
      exact key _ _ hrep c hc
    obtain ⟨out, o1, o2⟩ := removeZero_weak (by rw [hsums]; exact hG) hnn
    obtain ⟨r, hr⟩ := scan_weak hlam out 0 0 (out.map (fun p => p.2.1)).sum env.fmin env.fmin (le_refl _) o2
    refine ⟨(r.1, f.name, r.2), ?_, rfl⟩
    unfold RegSplit.featureSplit
    rw [hb]
    have : RegBins.pack bins idx f g h = .ok out := by
      unfold RegBins.pack
      rw [e1]; exact o1
    simp only [this]
    unfold RegSplit.bestSplitAt
    rw [hr]; rfl
  obtain ⟨cands, c1, _, c3, c2⟩ := mapAll_exists step
  have hcne : cands ≠ [] := by
    obtain ⟨f, hf⟩ := List.exists_mem_of_ne_nil _ ht.columns
    obtain ⟨r, hr, _⟩ := c2 f hf
    intro h
    rw [h] at hr; cases hr
  obtain ⟨p, p1, p2, p3⟩ := maxBy_spec (fun p : K × String × K => p.1) hcne
  obtain ⟨f, hf, q1⟩ := c3 p p2
  refine ⟨f, hf, p.2.2, ?_⟩
  unfold RegSplit.bestSplit
  rw [c1]
  simp only [p1]
  rw [← q1]

theorem rfullTree_ok {env : TreeEnv K} {t : RegressionTree K} {s : Sample K} (ht : RegOk env t s) {g h : List K} (hg : g.length = s.nSample)
    (hh : h.length = s.nSample) : ∀ (depth : Nat) (idx : List Nat), idx ≠ [] → (∀ i ∈ idx, i < s.nSample) →
      Regular t.lambdaL2 h idx → ∃ node, RegressionTree.fullTree env t s g h depth idx = .ok node := by
  have hz : ∀ idx, idx ≠ [] → Regular t.lambdaL2 h idx → weightOf h idx + t.lambdaL2 ≠ 0 := by
    intro idx hne hr
    have h0 : 0 ≤ weightOf h idx := by
      apply List.sum_nonneg
      intro v hv
      obtain ⟨i, hi, rfl⟩ := List.mem_map.mp hv
      exact hr.2.1 i hi
    rcases hr.2.2 with h1 | h1
    · have : 0 < weightOf h idx + t.lambdaL2 := by linarith
      exact this.ne'
    · have := weightOf_pos hne h1
      have : 0 < weightOf h idx + t.lambdaL2 := by linarith [hr.1]
      exact this.ne'
  intro depth
  induction depth with
  | zero =>
    intro idx hne hr hreg
    unfold RegressionTree.fullTree
    rw [predictionAndLoss_ok (by simpa [hg] using hr) (by simpa [hh] using hr) (hz idx hne hreg)]
    exact ⟨_, rfl⟩
  | succ depth ih =>
    intro idx hne hr hreg
    unfold RegressionTree.fullTree
    rw [predictionAndLoss_ok (by simpa [hg] using hr) (by simpa [hh] using hr) (hz idx hne hreg)]
    simp only
    split
    · exact ⟨_, rfl⟩
    · rename_i hld
      rw [not_or] at hld
      have hG : weightOf g idx ≠ 0 := by
        intro h0
        apply hld.1
        rw [h0]; simp
      have hb : ∃ f ∈ s.features, ∃ th, RegSplit.bestSplit env t.bins s g h idx t.lambdaL2 = .ok (f.name, th) := by
        rcases hreg.2.2 with h1 | h1
        · exact rbestSplit_weak ht h1 hg hh (fun i hi => ⟨hr i hi, hreg.2.1 i hi⟩) hG
        · obtain ⟨f, hf, th, b1, _⟩ := rbestSplit_ok ht hreg.1 hg hh hne (fun i hi => ⟨hr i hi, h1 i hi⟩)
          exact ⟨f, hf, th, b1⟩
      obtain ⟨f, hf, th, b1⟩ := hb
      rw [b1]
      simp only
      rw [splitRows_ok ht.sample hf th idx hr]
      simp only
      have hsub : ∀ p : Nat → Bool, Regular t.lambdaL2 h (idx.filter p) := by
        intro p
        refine ⟨hreg.1, fun i hi => hreg.2.1 i (List.mem_filter.mp hi).1, ?_⟩
        rcases hreg.2.2 with h1 | h1
        · exact Or.inl h1
        · exact Or.inr (fun i hi => h1 i (List.mem_filter.mp hi).1)
      split
      · exact ⟨_, rfl⟩
      · rename_i hlr
        rw [not_or] at hlr
        obtain ⟨n1, g1⟩ := ih _ hlr.1 (fun i hi => hr i (List.mem_filter.mp hi).1) (hsub _)
        obtain ⟨n2, g2⟩ := ih _ hlr.2 (fun i hi => hr i (List.mem_filter.mp hi).1) (hsub _)
        rw [g1, g2]
        exact ⟨_, rfl⟩

end Miniboosts
