import Verif.Props.Bins
import Verif.Props.Sample
import Verif.Lemmas.TreeWeak
import Verif.Model.TreeBoost
import Verif.Spec.TreeBoost
import Verif.Props.AdaBoost
import Verif.Props.AdaBoostV
import Verif.Props.CERLPBoost
import Verif.Props.MLPBoost
import Verif.Props.LPBoostBound

/-! # C80, C81: boosting decision trees -/

set_option linter.unusedSectionVars false

namespace Miniboosts.Props

open Miniboosts Spec Real

variable {env : TreeEnv ℝ} {t : DecisionTree ℝ} {s : Sample ℝ} {dist : List ℝ}

/-- C80: for each of the four criteria, `±1` labels and depth at least one: if some decision stump at some bin boundary has
edge `γ` under the training weights, the tree has edge at least `γ² / (total weight)` (half of it for entropy). -/
theorem tree_weak_learner (ht : TrainOk env t s dist) (hln : t.criterion = .entropy → env.ln = log)
    (hdepth : 0 < t.maxDepth) (hnn : ∀ d ∈ dist, 0 ≤ d) (hpm : ∀ y ∈ s.target, y = 1 ∨ y = -1)
    {tree : TreeNode ℝ} (h : t.produce env s dist = .ok tree) :
    ∃ conf : Nat → ℝ, (∀ i < s.nSample, tree.confidence s i = .ok (conf i)) ∧
      ∀ g ∈ s.features, ∀ th, IsBoundary t.bins g th →
        treeFactor t.criterion
          * ((List.range s.nSample).map (fun i => dist.getD i 0 * s.target.getD i 0 * stump g th i)).sum ^ 2
          ≤ weightOf dist (List.range s.nSample)
            * ((List.range s.nSample).map (fun i => dist.getD i 0 * s.target.getD i 0 * conf i)).sum := by
  obtain ⟨node, hn, hr, hg, rfl⟩ := produce_grown ht.order ht.sample ht.weights h
  have hlab : ∀ i ∈ trainRows s dist, s.target.getD i 0 = 1 ∨ s.target.getD i 0 = -1 := by
    intro i hi
    have : i < s.target.length := by rw [ht.sample.labels]; exact (hr.2 i hi).1
    rw [List.getD_eq_getElem?_getD, List.getElem?_eq_getElem this]
    exact hpm _ (List.getElem_mem this)
  refine ⟨fun i => evalAt s i (TreeNode.ofTrain node), grown_confidence_all ht.sample node hr.1 hg, ?_⟩
  rintro g hgm th ⟨bins, hb, b, hbm, hth⟩
  have e1 : treeEdge s dist (trainRows s dist) (TreeNode.ofTrain node)
      = ((List.range s.nSample).map (fun i => dist.getD i 0 * s.target.getD i 0 * evalAt s i (TreeNode.ofTrain node))).sum := by
    unfold treeEdge
    simp only [mul_assoc]
    exact sum_train hnn _
  have e3 : weightOf dist (trainRows s dist) = weightOf dist (List.range s.nSample) := by
    have := sum_train (s := s) hnn (fun _ => (1 : ℝ))
    simp only [mul_one] at this
    exact this
  have e4 : ((List.range s.nSample).map (fun i => dist.getD i 0 * s.target.getD i 0 * stump g th i)).sum ^ 2
      = splitValue env.ln ((trainRows s dist).map (rowAt s dist g.name)) th .edge ^ 2 := by
    simp only [splitValue, stump]
    rw [sq_abs]
    congr 1
    simp only [mul_assoc]
    rw [← sum_train hnn, List.map_map]
    congr 1
    apply List.map_congr_left
    intro i hi
    simp only [Function.comp_apply, rowAt, asI32_pm (hlab i hi), cell_eq ht.sample hgm]
    ring
  rw [e4, ← e1, ← e3]
  set idx := trainRows s dist with hidx
  have hpos := weightOf_pos hr.1 (fun i hi => (hr.2 i hi).2)
  have hrp : ∀ i ∈ idx, 0 < dist.getD i 0 := fun i hi => (hr.2 i hi).2
  -- the stump's square is covered by the merit of its split
  have hm := merit_ge hrp hlab env.ln g.name th
  have hmw := merit_le hrp hlab (rule := ⟨g.name, th⟩)
  set E := splitValue env.ln (idx.map (rowAt s dist g.name)) th .edge with hE
  have hm' : E ^ 2 / weightOf dist idx ≤ merit s dist idx ⟨g.name, th⟩ := by
    rw [div_le_iff₀ hpos]; linarith
  have hm0 : 0 ≤ merit s dist idx ⟨g.name, th⟩ := le_trans (div_nonneg (sq_nonneg _) hpos.le) hm'
  have goal : treeFactor t.criterion * (E ^ 2 / weightOf dist idx) ≤ treeEdge s dist idx (TreeNode.ofTrain node) := by
    apply tree_merit ht hdepth hlab hn hg
    · have : treeFactor t.criterion ≤ 1 := by cases t.criterion <;> simp only [treeFactor] <;> norm_num
      have h0 : 0 ≤ E ^ 2 / weightOf dist idx := div_nonneg (sq_nonneg _) hpos.le
      calc treeFactor t.criterion * (E ^ 2 / weightOf dist idx) ≤ 1 * (E ^ 2 / weightOf dist idx) :=
            mul_le_mul_of_nonneg_right this h0
        _ ≤ weightOf dist idx := by linarith
    · intro f hf bt hopt
      have hbest := hopt g hgm bins hb b hbm th hth
      cases hc : t.criterion with
      | entropy =>
        rw [hc, hln hc] at hbest
        change splitValue log (idx.map (rowAt s dist f.name)) bt .entropy ≤ splitValue log (idx.map (rowAt s dist g.name)) th .entropy at hbest
        have v1 := (entropy_value hrp hlab f.name bt).1
        have v2 := (entropy_value hrp hlab g.name th).2
        simp only [treeFactor]
        linarith
      | gini =>
        rw [hc] at hbest
        change splitValue env.ln (idx.map (rowAt s dist f.name)) bt .gini ≤ splitValue env.ln (idx.map (rowAt s dist g.name)) th .gini at hbest
        rw [gini_value hrp hlab, gini_value hrp hlab] at hbest
        simp only [treeFactor]
        linarith
      | edge =>
        rw [hc] at hbest
        change E ≤ splitValue env.ln (idx.map (rowAt s dist f.name)) bt .edge at hbest
        have h0 : 0 ≤ E := by rw [hE]; simp only [splitValue]; exact abs_nonneg _
        have hsq := pow_le_pow_left₀ h0 hbest 2
        have hm2 := merit_ge hrp hlab env.ln f.name bt
        simp only [treeFactor, one_mul]
        rw [div_le_iff₀ hpos]
        linarith
      | twoing =>
        rw [hc] at hbest
        change splitValue env.ln (idx.map (rowAt s dist g.name)) th .twoing ≤ splitValue env.ln (idx.map (rowAt s dist f.name)) bt .twoing at hbest
        rw [twoing_value hr.1 hrp hlab, twoing_value hr.1 hrp hlab, div_le_div_iff_of_pos_right (by linarith)] at hbest
        simp only [treeFactor]
        linarith
  rw [← mul_div_assoc, div_le_iff₀ hpos] at goal
  linarith

theorem sum_getD_range (d : List ℝ) (n : Nat) (h : d.length = n) : weightOf d (List.range n) = d.sum := by
  unfold weightOf
  rw [← h]
  congr 1
  apply List.ext_getElem (by simp)
  intro i h1 h2
  simp [List.getD_eq_getElem?_getD, List.getElem?_eq_getElem h2]

theorem getD_nonneg {d : List ℝ} (h : ∀ p ∈ d, 0 ≤ p) (i : Nat) : 0 ≤ d.getD i 0 := by
  rw [List.getD_eq_getElem?_getD]
  cases he : d[i]? with
  | none => simp
  | some x => simpa using h x (List.mem_of_getElem? he)

/-- Averaging: under every distribution some stump of the vote has an edge of at least `θ`, up to sign. -/
theorem exists_stump {bins : List (String × List (Bin ℝ))} {θ : ℝ} (hθ : 0 < θ) (hv : StumpMargin s bins θ)
    (hd : dist.length = s.nSample) (hp : IsProb dist) :
    ∃ g ∈ s.features, ∃ th, IsBoundary bins g th ∧
      θ ≤ |((List.range s.nSample).map (fun i => dist.getD i 0 * s.target.getD i 0 * stump g th i)).sum| := by
  obtain ⟨v, v1, v2, v3⟩ := hv
  by_contra hcon
  push Not at hcon
  set ed : Feature ℝ → ℝ → ℝ := fun g th =>
    ((List.range s.nSample).map (fun i => dist.getD i 0 * s.target.getD i 0 * stump g th i)).sum with hed
  -- exchange
  have hex : ((List.range s.nSample).map (fun i => dist.getD i 0 * (s.target.getD i 0 * (v.map (fun p => p.1 * stump p.2.1 p.2.2 i)).sum))).sum
      = (v.map (fun p => p.1 * ed p.2.1 p.2.2)).sum := by
    clear v1 v2 v3 hcon
    induction v with
    | nil => simp
    | cons p v ih =>
      simp only [List.map_cons, List.sum_cons, mul_add]
      rw [sum_map_add', ih, hed]
      congr 1
      rw [← sum_map_mul_left']
      congr 1
      apply List.map_congr_left
      intro i _
      ring
  have hlow : θ ≤ ((List.range s.nSample).map (fun i => dist.getD i 0 * (s.target.getD i 0 * (v.map (fun p => p.1 * stump p.2.1 p.2.2 i)).sum))).sum := by
    calc θ = θ * weightOf dist (List.range s.nSample) := by rw [sum_getD_range dist _ hd, hp.2, mul_one]
      _ = ((List.range s.nSample).map (fun i => θ * dist.getD i 0)).sum := by
        unfold weightOf
        rw [sum_map_mul_left']
      _ ≤ _ := by
        apply sum_map_le
        intro i hi
        rw [mul_comm]
        exact mul_le_mul_of_nonneg_left (v3 i (List.mem_range.1 hi)) (getD_nonneg hp.1 i)
  rw [hex] at hlow
  -- upper bound
  have hup : (v.map (fun p => p.1 * ed p.2.1 p.2.2)).sum < θ := by
    by_cases hz : (v.map (fun p => |p.1|)).sum = 0
    · have : (v.map (fun p => p.1 * ed p.2.1 p.2.2)).sum = 0 := by
        apply List.sum_eq_zero
        intro x hx
        obtain ⟨p, hp', rfl⟩ := List.mem_map.1 hx
        have := single_le_sum_map v (fun p => |p.1|) (fun p _ => abs_nonneg _) hp'
        have : p.1 = 0 := abs_eq_zero.1 (le_antisymm (by linarith) (abs_nonneg _))
        rw [this, zero_mul]
      rw [this]; exact hθ
    · have hzp : 0 < (v.map (fun p => |p.1|)).sum :=
        lt_of_le_of_ne (sum_map_nonneg v _ (fun p _ => abs_nonneg _)) (Ne.symm hz)
      obtain ⟨x, hx, hx0⟩ : ∃ p ∈ v, p.1 ≠ 0 := by
        by_contra hcon'
        push Not at hcon'
        apply hz
        apply List.sum_eq_zero
        intro y hy
        obtain ⟨p, hp', rfl⟩ := List.mem_map.1 hy
        rw [hcon' p hp', abs_zero]
      have hle : ∀ p ∈ v, p.1 * ed p.2.1 p.2.2 ≤ |p.1| * θ := by
        intro p hp'
        have h1 := (hcon p.2.1 (v1 p hp').1 p.2.2 (v1 p hp').2).le
        calc p.1 * ed p.2.1 p.2.2 ≤ |p.1 * ed p.2.1 p.2.2| := le_abs_self _
          _ = |p.1| * |ed p.2.1 p.2.2| := abs_mul _ _
          _ ≤ |p.1| * θ := mul_le_mul_of_nonneg_left h1 (abs_nonneg _)
      have hlt : x.1 * ed x.2.1 x.2.2 < |x.1| * θ := by
        have h1 := hcon x.2.1 (v1 x hx).1 x.2.2 (v1 x hx).2
        calc x.1 * ed x.2.1 x.2.2 ≤ |x.1 * ed x.2.1 x.2.2| := le_abs_self _
          _ = |x.1| * |ed x.2.1 x.2.2| := abs_mul _ _
          _ < |x.1| * θ := mul_lt_mul_of_pos_left h1 (abs_pos.2 hx0)
      have h2 : (v.map (fun p => p.1 * ed p.2.1 p.2.2)).sum < (v.map (fun p => |p.1| * θ)).sum :=
        List.sum_lt_sum _ _ hle ⟨x, hx, hlt⟩
      have h3 : (v.map (fun p => |p.1| * θ)).sum = (v.map (fun p => |p.1|)).sum * θ := by
        rw [List.sum_map_mul_right]
      rw [h3] at h2
      nlinarith
  linarith

/-- The edge on the rows of the sample, as a sum over row numbers. -/
theorem edge_rows (hd : dist.length = s.nSample) (g : Sample ℝ × Nat → ℝ) :
    Spec.edge s.rows dist g = ((List.range s.nSample).map (fun i => dist.getD i 0 * s.target.getD i 0 * g (s, i))).sum := by
  unfold Spec.edge Sample.rows
  congr 1
  apply List.ext_getElem (by simp [hd])
  intro i h1 h2
  have hi : i < s.nSample := by simpa using h2
  simp [List.getD_eq_getElem?_getD, List.getElem?_eq_getElem (show i < dist.length by omega), mul_assoc]

/-- What boosting trees needs: the sample can be used for training under every distribution, labels `±1`, depth at least
one, and `env.ln` is the logarithm when the criterion is entropy. -/
structure TreesOk (env : TreeEnv ℝ) (t : DecisionTree ℝ) (s : Sample ℝ) : Prop where
  train : ∀ dist, dist.length = s.nSample → IsProb dist → TrainOk env t s dist
  labels : ∀ y ∈ s.target, y = 1 ∨ y = -1
  depth : 0 < t.maxDepth
  ln : t.criterion = .entropy → env.ln = log
  order : ∀ m, (env.order m).Perm m
  sample : SampleOk s

theorem rows_length (s : Sample ℝ) : s.rows.length = s.nSample := by simp [Sample.rows]

theorem rows_pmLabels (ok : TreesOk env t s) : PmLabels s.rows := by
  intro e he
  obtain ⟨i, hi, rfl⟩ := List.mem_map.1 he
  have : i < s.target.length := by rw [ok.sample.labels]; exact List.mem_range.1 hi
  simp only
  rw [List.getD_eq_getElem?_getD, List.getElem?_eq_getElem this]
  exact ok.labels _ (List.getElem_mem this)

theorem conf_ok {tree : TreeNode ℝ} {i : Nat} {c : ℝ} (h : tree.confidence s i = .ok c) :
    (conf tree (s, i) : ℝ) = c := by
  change orZero (tree.confidence s i) = c
  rw [h]; rfl

/-- All confidences kept in the nodes are in `[-1, 1]`. -/
def Bounded : TrainNode ℝ → Prop
  | .leaf c _ _ => -1 ≤ c ∧ c ≤ 1
  | .branch _ l r c _ _ _ => (-1 ≤ c ∧ c ≤ 1) ∧ Bounded l ∧ Bounded r

theorem confidenceAndLoss_range {idx : List Nat} {c l : ℝ} (h : confidenceAndLoss env s dist idx = .ok (c, l)) : -1 ≤ c ∧ c ≤ 1 := by
  unfold confidenceAndLoss at h
  split at h
  · cases h
  · split at h
    · cases h
    · simp only at h
      split at h
      · cases h
      · simp only [Except.ok.injEq, Prod.mk.injEq] at h
        rw [← h.1]
        split <;> exact clamp1_range _

theorem fullTree_bounded : ∀ (depth : Nat) (idx : List Nat) (node : TrainNode ℝ),
    DecisionTree.fullTree env t s dist depth idx = .ok node → Bounded node := by
  intro depth
  induction depth with
  | zero =>
    intro idx node h
    unfold DecisionTree.fullTree at h
    split at h
    · cases h
    · split at h
      · cases h
      · rename_i hc
        simp only [Except.ok.injEq] at h
        subst h
        exact confidenceAndLoss_range hc
  | succ depth ih =>
    intro idx node h
    unfold DecisionTree.fullTree at h
    split at h
    · cases h
    · split at h
      · cases h
      · rename_i hc
        simp only at h
        split at h
        · simp only [Except.ok.injEq] at h
          subst h
          exact confidenceAndLoss_range hc
        · split at h
          · cases h
          · split at h
            · cases h
            · split at h
              · simp only [Except.ok.injEq] at h
                subst h
                exact confidenceAndLoss_range hc
              · split at h
                · cases h
                · rename_i l hl
                  split at h
                  · cases h
                  · rename_i r hr
                    simp only [Except.ok.injEq] at h
                    subst h
                    exact ⟨confidenceAndLoss_range hc, ih _ _ hl, ih _ _ hr⟩

theorem removeRedundant_bounded (n : TrainNode ℝ) (h : Bounded n) : Bounded n.removeRedundant := by
  induction n with
  | leaf c w l => exact h
  | branch rule left right c w l n ihl ihr =>
    unfold TrainNode.removeRedundant
    split
    · exact ⟨h.1, ihl h.2.1, h.2.2⟩
    · split
      · exact ⟨h.1, h.2.1, ihr h.2.2⟩
      · split
        · exact h.1
        · exact ⟨h.1, ihl h.2.1, ihr h.2.2⟩

theorem bounded_confidence (n : TrainNode ℝ) (h : Bounded n) (s' : Sample ℝ) (i : Nat) :
    |orZero ((TreeNode.ofTrain n).confidence s' i)| ≤ 1 := by
  induction n with
  | leaf c w l => exact abs_le.2 h
  | branch rule left right c w l n ihl ihr =>
    simp only [TreeNode.ofTrain, TreeNode.confidence]
    split
    · simp [orZero]
    · exact ihl h.2.1
    · exact ihr h.2.2

/-- The learner's answers have confidences in `[-1, 1]`, whatever the weights. -/
theorem treeLearner_range (env : TreeEnv ℝ) (t : DecisionTree ℝ) (s : Sample ℝ) (k : Nat) (d : List ℝ) (x : Sample ℝ × Nat) :
    |(conf (treeLearner env t s k d) x : ℝ)| ≤ 1 := by
  change |orZero ((treeLearner env t s k d).confidence x.1 x.2)| ≤ 1
  unfold treeLearner
  split
  · rename_i tree h
    unfold DecisionTree.produce at h
    split at h
    · cases h
    · split at h
      · cases h
      · split at h
        · cases h
        · rename_i node hn
          simp only [Except.ok.injEq] at h
          subst h
          exact bounded_confidence _ (removeRedundant_bounded _ (fullTree_bounded _ _ _ hn)) _ _
  · simp [TreeNode.confidence, orZero]

/-- C81: on a sample on which some vote of bin-boundary stumps has margin `θ`, the tree learner answers every distribution
(without a panic, also when evaluating the answer on the sample) with an edge of at least `θ²` (half of it for entropy). -/
theorem tree_answers (ok : TreesOk env t s) {θ : ℝ} (hθ : 0 < θ) (hv : StumpMargin s t.bins θ) (k : Nat) (d : List ℝ)
    (hd : d.length = s.nSample) (hp : IsProb d) :
    (∃ tree, t.produce env s d = .ok tree ∧ treeLearner env t s k d = tree ∧ ∀ i < s.nSample, ∃ c, tree.confidence s i = .ok c) ∧
      treeFactor t.criterion * θ ^ 2 ≤ Spec.edge s.rows d (conf (treeLearner env t s k d)) := by
  have ht := ok.train d hd hp
  obtain ⟨tree, h⟩ := tree_training_succeeds ht
  obtain ⟨c, hc, hw⟩ := tree_weak_learner ht ok.ln ok.depth hp.1 ok.labels h
  have hl : treeLearner env t s k d = tree := by unfold treeLearner; rw [h]
  refine ⟨⟨tree, h, hl, fun i hi => ⟨_, hc i hi⟩⟩, ?_⟩
  obtain ⟨g, hg, th, hb, hge⟩ := exists_stump hθ hv hd hp
  have := hw g hg th hb
  rw [sum_getD_range d _ hd, hp.2, one_mul] at this
  rw [hl, edge_rows hd]
  have hsq : θ ^ 2 ≤ ((List.range s.nSample).map (fun i => d.getD i 0 * s.target.getD i 0 * stump g th i)).sum ^ 2 := by
    rw [← sq_abs ((List.range s.nSample).map (fun i => d.getD i 0 * s.target.getD i 0 * stump g th i)).sum]
    exact pow_le_pow_left₀ hθ.le hge 2
  have hk : 0 ≤ treeFactor t.criterion := by cases t.criterion <;> simp only [treeFactor] <;> norm_num
  refine (mul_le_mul_of_nonneg_left hsq hk).trans (this.trans (le_of_eq ?_))
  congr 1
  apply List.map_congr_left
  intro i hi
  rw [conf_ok (hc i (List.mem_range.1 hi))]

/-! ## The boosters on trees -/

/-- All queries were answered by a tree, without a panic, and all answers can be evaluated on the whole sample. -/
def AllAnswered (env : TreeEnv ℝ) (t : DecisionTree ℝ) (s : Sample ℝ) (qs : List (List ℝ)) : Prop :=
  ∀ q ∈ qs, ∃ tree, t.produce env s q = .ok tree ∧ (∀ k, treeLearner env t s k q = tree) ∧
    ∀ i < s.nSample, ∃ c, tree.confidence s i = .ok c

theorem answered {q : List ℝ} (ok : TreesOk env t s) (hd : q.length = s.nSample) (hp : IsProb q) :
    ∃ tree, t.produce env s q = .ok tree ∧ (∀ k, treeLearner env t s k q = tree) ∧ ∀ i < s.nSample, ∃ c, tree.confidence s i = .ok c := by
  have ht := ok.train q hd hp
  obtain ⟨tree, h⟩ := tree_training_succeeds ht
  obtain ⟨c, hc, -⟩ := tree_weak_learner ht ok.ln ok.depth hp.1 ok.labels h
  exact ⟨tree, h, fun k => by unfold treeLearner; rw [h], fun i hi => ⟨_, hc i hi⟩⟩

theorem rows_checkBinary (ok : TreesOk env t s) (h : s.isValidBinaryInstance = .ok ()) : checkBinary s.rows = .ok () := by
  unfold checkBinary
  have : s.rows.map Prod.snd = s.target := by
    unfold Sample.rows
    rw [List.map_map]
    apply List.ext_getElem (by simp [ok.sample.labels])
    intro i h1 h2
    simp [List.getD_eq_getElem?_getD, List.getElem?_eq_getElem h2]
  rw [this, rows_length]
  exact h

theorem isProb_of_pos {q : List ℝ} (h : IsPosProb q) : IsProb q := ⟨fun p hp => (h.1 p hp).le, h.2⟩
theorem isProb_of_capped {ν : ℝ} {q : List ℝ} (h : IsCapped ν q) : IsProb q := ⟨fun p hp => (h.1 p hp).1, h.2⟩

/-- C81 for AdaBoost: decision trees of any criterion and any depth, on a binary `±1` sample separated with margin `θ` by a
vote of bin-boundary stumps: if the iteration limit exceeds `2 ln(m) / (κ θ²)²`, `run` returns (no panic in the booster,
in training the trees or in evaluating them) a hypothesis that classifies every training row correctly. -/
theorem adaboost_trees (ok : TreesOk env t s) (hvalid : s.isValidBinaryInstance = .ok ()) {θ : ℝ} (hθ : 0 < θ)
    (hv : StumpMargin s t.bins θ) (s₀ : AdaBoost (TreeNode ℝ))
    (hlim : 2 * log s.nSample < (treeFactor t.criterion * θ ^ 2) ^ 2 * adaboostLimit s.rows s₀) :
    ∃ f qs, (AdaBoost.booster s.rows).run (treeLearner env t s) (adaboostLimit s.rows s₀ + 1) s₀ = some (.ok (f, qs)) ∧
      Spec.errors s.rows (predict (K := ℝ) f) = 0 ∧ AllAnswered env t s qs := by
  have hk : 0 < treeFactor t.criterion := by cases t.criterion <;> simp only [treeFactor] <;> norm_num
  obtain ⟨f, qs, hrun, herr⟩ := adaboost_run_zero_error s.rows s₀ (treeLearner env t s) (rows_checkBinary ok hvalid)
    (rows_pmLabels ok) (fun k d e _ => treeLearner_range env t s k d e.1) (treeFactor t.criterion * θ ^ 2) (by positivity)
    (fun k d hd hp => (tree_answers ok hθ hv k d (by rw [hd, rows_length]) (isProb_of_pos hp)).2)
    (by rw [rows_length]; exact hlim)
  refine ⟨f, qs, hrun, herr, ?_⟩
  obtain ⟨n, qs', s', out, k, h1, -, h3, -, h5, -⟩ := (AdaBoost.booster s.rows).run_spec _ s₀ hrun
  intro q hq
  obtain ⟨q1, q2⟩ := adaboost_queries_are_distributions s.rows s₀ _ n qs' s' h1 out h3 q (by rw [← h5]; exact hq)
  exact answered ok (by rw [q1, rows_length]) (isProb_of_pos q2)

/-- C81 for AdaBoostV: every training row ends with margin at least `κ θ²` less the tolerance. -/
theorem adaboostv_trees (ok : TreesOk env t s) (hvalid : s.isValidBinaryInstance = .ok ()) {θ : ℝ} (hθ : 0 < θ)
    (hv : StumpMargin s t.bins θ) (s₀ : AdaBoostV (TreeNode ℝ)) (htol : 0 < s₀.tolerance)
    (htol' : s₀.tolerance < 1 + treeFactor t.criterion * θ ^ 2) (hlim0 : 0 < adaboostvLimit s.rows s₀)
    (hlim : 2 * log s.nSample ≤ s₀.tolerance ^ 2 * adaboostvLimit s.rows s₀) :
    ∃ f qs, (AdaBoostV.booster s.rows).run (treeLearner env t s) (adaboostvLimit s.rows s₀ + 1) s₀ = some (.ok (f, qs)) ∧
      (∀ i < s.nSample, treeFactor t.criterion * θ ^ 2 - s₀.tolerance ≤ s.target.getD i 0 * conf f (s, i)) ∧ AllAnswered env t s qs := by
  obtain ⟨f, qs, hrun, hm⟩ := adaboostv_run_margin s.rows s₀ (treeLearner env t s) (rows_checkBinary ok hvalid)
    (rows_pmLabels ok) (fun k d e _ => treeLearner_range env t s k d e.1) (treeFactor t.criterion * θ ^ 2) htol (by linarith)
    (fun k d hd hp => (tree_answers ok hθ hv k d (by rw [hd, rows_length]) (isProb_of_pos hp)).2) hlim0
    (by rw [rows_length]; exact hlim)
  refine ⟨f, qs, hrun, fun i hi => hm ((s, i), s.target.getD i 0) (List.mem_map.2 ⟨i, List.mem_range.2 hi, rfl⟩), ?_⟩
  obtain ⟨n, qs', s', out, k, h1, -, h3, -, h5, -⟩ := (AdaBoostV.booster s.rows).run_spec _ s₀ hrun
  intro q hq
  obtain ⟨q1, q2⟩ := adaboostv_queries_are_distributions s.rows s₀ _ n qs' s' h1 out h3 q (by rw [← h5]; exact hq)
  exact answered ok (by rw [q1, rows_length]) (isProb_of_pos q2)

theorem tree_beq : ∀ f h : TreeNode ℝ, (f == h) = true → ∀ e ∈ s.rows, conf f e.1 = (conf h e.1 : ℝ) := by
  intro f h hb e _
  have : f = h := by simpa using hb
  rw [this]

/-- C81 for CERLPBoost: the returned hypothesis has soft margin at least `κ θ²` less the tolerance. -/
theorem cerlp_trees (ok : TreesOk env t s) (hvalid : s.isValidBinaryInstance = .ok ()) {θ : ℝ} (hθ : 0 < θ)
    (hv : StumpMargin s t.bins θ) (s₀ : CERLPBoost (TreeNode ℝ))
    (hfw : s₀.frankWolfe.fwType = .classic ∨ s₀.frankWolfe.fwType = .shortStep) (hnu1 : 1 ≤ s₀.nu) (hnu : s₀.nu < s.nSample)
    (htol : 0 < s₀.halfTolerance) (htol' : s₀.halfTolerance < treeFactor t.criterion * θ ^ 2) :
    ∃ f qs, (CERLPBoost.booster s.rows).run (treeLearner env t s) (cerlpLimit s.rows s₀ + 1) s₀ = some (.ok (f, qs)) ∧
      Spec.SoftMarginGe s.rows s₀.nu (conf f) (treeFactor t.criterion * θ ^ 2 - 2 * s₀.halfTolerance) ∧ AllAnswered env t s qs := by
  have cok : CerlpOk s.rows s₀ := ⟨hfw, htol, hnu1, by rw [rows_length]; exact hnu.le, tree_beq⟩
  have hans : ∀ k d, d.length = s.rows.length → IsCapped s₀.nu d →
      treeFactor t.criterion * θ ^ 2 ≤ Spec.edge s.rows d (conf (treeLearner env t s k d)) := fun k d hd hp =>
    (tree_answers ok hθ hv k d (by rw [hd, rows_length]) (isProb_of_capped hp)).2
  obtain ⟨f, qs, hrun⟩ := cerlp_returns s.rows s₀ cok (rows_checkBinary ok hvalid) (by rw [rows_length]; exact hnu)
    (treeLearner env t s) (fun d hd hp => lt_of_lt_of_le htol' (hans 1 d hd hp))
  obtain ⟨r, hr, hq⟩ := cerlp_terminates s.rows s₀ cok (treeLearner env t s)
  rw [hrun, Option.some.injEq] at hr
  refine ⟨f, qs, hrun, fun d hd hp => (cerlp_soft_margin s.rows s₀ cok (rows_pmLabels ok) _
    (fun k d e _ => treeLearner_range env t s k d e.1) _ hans _ f qs hrun d hd hp).1, ?_⟩
  intro q hq'
  obtain ⟨q1, q2, -⟩ := (hq f qs hr.symm).2 q hq'
  exact answered ok (by rw [q1, rows_length]) (isProb_of_capped q2)

/-- C81 for MLPBoost. -/
theorem mlp_trees (ok : TreesOk env t s) (hvalid : s.isValidBinaryInstance = .ok ()) {θ : ℝ} (hθ : 0 < θ)
    (hv : StumpMargin s t.bins θ) (s₀ : MLPBoost (TreeNode ℝ)) (solver : Solver ℝ) (hsolver : solver.Correct) (noise : Nat → Nat → ℝ)
    (hfw : s₀.primary.fwType = .classic ∨ s₀.primary.fwType = .shortStep) (hnu1 : 1 ≤ s₀.nu) (hnu : s₀.nu < s.nSample)
    (htol : 0 < s₀.halfTolerance) :
    ∃ f qs, (MLPBoost.booster solver noise s.rows).run (treeLearner env t s) (mlpLimit s.rows s₀ + 1) s₀ = some (.ok (f, qs)) ∧
      Spec.SoftMarginGe s.rows s₀.nu (conf f) (treeFactor t.criterion * θ ^ 2 - 2 * s₀.halfTolerance) ∧ AllAnswered env t s qs := by
  have cok : MlpOk s.rows s₀ := ⟨hfw, htol, hnu1, by rw [rows_length]; exact hnu.le, tree_beq⟩
  have hans : ∀ k d, d.length = s.rows.length → IsCapped s₀.nu d →
      treeFactor t.criterion * θ ^ 2 ≤ Spec.edge s.rows d (conf (treeLearner env t s k d)) := fun k d hd hp =>
    (tree_answers ok hθ hv k d (by rw [hd, rows_length]) (isProb_of_capped hp)).2
  obtain ⟨f, qs, hrun⟩ := mlp_returns s.rows s₀ cok solver hsolver noise (rows_checkBinary ok hvalid) (by rw [rows_length]; exact hnu)
    (treeLearner env t s)
  obtain ⟨r, hr, hq⟩ := mlp_terminates s.rows s₀ cok solver hsolver noise (treeLearner env t s)
  rw [hrun, Option.some.injEq] at hr
  refine ⟨f, qs, hrun, (mlp_soft_margin s.rows s₀ cok solver hsolver noise (rows_pmLabels ok) _
    (fun k d e _ => treeLearner_range env t s k d e.1) _ hans _ f qs hrun).1, ?_⟩
  intro q hq'
  obtain ⟨q1, q2, -⟩ := (hq f qs hr.symm).2 q hq'
  exact answered ok (by rw [q1, rows_length]) (isProb_of_capped q2)

/-- C81 for LPBoost: it returns, and every training row has margin at least `κ θ²` less the tolerance. -/
theorem lpboost_trees (ok : TreesOk env t s) (hvalid : s.isValidBinaryInstance = .ok ()) {θ : ℝ} (hθ : 0 < θ)
    (hv : StumpMargin s t.bins θ) (s₀ : LPBoost ℝ (TreeNode ℝ)) (hn : s₀.nSample = s.nSample) (solver : Solver ℝ)
    (hsolver : solver.Correct) (hnu1 : 1 ≤ s₀.nu) (hnu : s₀.nu ≤ s.nSample) (htol : 0 < s₀.tolerance) :
    ∃ f qs, (LPBoost.booster solver s.rows).run (treeLearner env t s) ((⌊2 / s₀.tolerance⌋₊ + 1) ^ s.nSample + 1) s₀
        = some (.ok (f, qs)) ∧
      (∀ i < s.nSample, treeFactor t.criterion * θ ^ 2 - s₀.tolerance ≤ s.target.getD i 0 * conf f (s, i)) ∧
      AllAnswered env t s qs := by
  have hn' : s₀.nSample = s.rows.length := by rw [hn, rows_length]
  obtain ⟨f, qs, hrun⟩ := lpboost_returns_always s.rows s₀ hn' (rows_pmLabels ok) htol (rows_checkBinary ok hvalid) hnu1
    (by rw [rows_length]; exact hnu) solver hsolver (treeLearner env t s) (fun k d e _ => treeLearner_range env t s k d e.1)
  rw [rows_length] at hrun
  have hans : ∀ k d, d.length = s.rows.length → IsProb d →
      treeFactor t.criterion * θ ^ 2 ≤ Spec.edge s.rows d (conf (treeLearner env t s k d)) := fun k d hd hp =>
    (tree_answers ok hθ hv k d (by rw [hd, rows_length]) hp).2
  -- queries
  have hqs : ∀ {n qs s₁} (_ : (LPBoost.booster solver s.rows).Reachable (treeLearner env t s) s₀ n qs s₁),
      ∀ q ∈ qs, q.length = s.rows.length ∧ IsProb q := by
    intro n qs s₁ hr
    induction hr with
    | start _ => simp
    | @step n qs s₁ out hr hb hf ih =>
      intro q hq
      rcases List.mem_append.1 hq with hq | hq
      · exact ih q hq
      · obtain ⟨out', d, g1, g2, g3, g4⟩ := lpboost_queries s.rows s₀ hn' solver hsolver _ n qs s₁ hr
        rw [hb, Except.ok.injEq] at g1; subst g1
        rw [g2] at hq; simp at hq; subst hq; exact ⟨g3, g4⟩
  have hall : ∀ q ∈ qs, q.length = s.rows.length ∧ IsProb q := by
    obtain ⟨n, qs', s', out, k, h1, -, h3, -, h5, -⟩ := (LPBoost.booster solver s.rows).run_spec _ s₀ hrun
    rw [h5]
    intro q hq
    rcases List.mem_append.1 hq with hq | hq
    · exact hqs h1 q hq
    · obtain ⟨out', d, g1, g2, g3, g4⟩ := lpboost_queries s.rows s₀ hn' solver hsolver _ n qs' s' h1
      rw [h3, Except.ok.injEq] at g1; subst g1
      rw [g2] at hq; simp at hq; subst hq; exact ⟨g3, g4⟩
  have hle : treeFactor t.criterion * θ ^ 2 ≤ 1 := by
    obtain ⟨n, qs', s', out, k, h1, -, h3, -, h5, -⟩ := (LPBoost.booster solver s.rows).run_spec _ s₀ hrun
    obtain ⟨out', d, -, -, g3, g4⟩ := lpboost_queries s.rows s₀ hn' solver hsolver _ n qs' s' h1
    refine (hans 0 d g3 g4).trans ?_
    have h1 := LP.le_edge_of_margins s.rows d g3 g4
      (fun x => (-1) * (conf (treeLearner env t s 0 d) x : ℝ) + 0 * conf (treeLearner env t s 0 d) x) (-1) (by
        intro e he
        have h2 := abs_le.1 (treeLearner_range env t s 0 d e.1)
        rcases rows_pmLabels ok e he with h | h <;> rw [h] <;> linarith)
    rw [edge_sub] at h1
    linarith
  refine ⟨f, qs, hrun, fun i hi => ?_, fun q hq => answered ok (by rw [(hall q hq).1, rows_length]) (hall q hq).2⟩
  exact (lpboost_margin s.rows s₀ hn' solver hsolver _ _ hle hans _ f qs hrun).2 ((s, i), s.target.getD i 0)
    (List.mem_map.2 ⟨i, List.mem_range.2 hi, rfl⟩)

/-! ## The hypotheses can be met -/

theorem prob_some_pos {d : List ℝ} (hp : IsProb d) : ∃ i < d.length, 0 < d.getD i 0 := by
  by_contra hcon
  push Not at hcon
  have : d.sum ≤ 0 := by
    have : ∀ x ∈ d, x ≤ 0 := ?_
    · clear hp hcon
      induction d with
      | nil => simp
      | cons a d ih =>
        have h1 := this a (by simp)
        have h2 := ih (fun x hx => this x (by simp [hx]))
        rw [List.sum_cons]; linarith
    intro x hx
    obtain ⟨i, hi, rfl⟩ := List.getElem_of_mem hx
    have := hcon i hi
    rwa [List.getD_eq_getElem?_getD, List.getElem?_eq_getElem hi, Option.getD_some] at this
  rw [hp.2] at this
  linarith

/-- Building with the default numbers of bins gives a tree learner with the properties assumed above. -/
theorem default_trees_ok (h0 : env.fmin < 0 ∧ 0 < env.fmax) (horder : ∀ m, (env.order m).Perm m) (hs : SampleOk s)
    (hfe : s.features ≠ []) (hr : 0 < s.nSample) (hpm : ∀ y ∈ s.target, y = 1 ∨ y = -1)
    (hb : ∀ f ∈ s.features, ∀ v, ValueOf s.nSample f v → env.fmin + 1 / 1000 < v ∧ v + 1 / 1000 < env.fmax)
    (hw : ∀ f ∈ s.features, ∀ lo hi, IsRange s.nSample f lo hi →
      (min f.distinctValueCount 255 = 1 ∨ 1 / 10 ^ 9 ≤ binWidth lo hi (min f.distinctValueCount 255)))
    (c : Criterion) (hln : c = .entropy → env.ln = log) {depth : Nat} (hdep : 0 < depth) :
    ∃ b t, ((DecisionTreeBuilder.new s).setCriterion c).setMaxDepth depth = .ok b ∧ b.build env = .ok t ∧
      t.criterion = c ∧ t.maxDepth = depth ∧ TreesOk env t s := by
  obtain ⟨b, t, h1, h2, h3, h4, h5⟩ := default_tree_trains h0 horder hs hfe hr hb hw c hdep
  refine ⟨b, t, h1, h2, h3, h4, ⟨?_, hpm, by omega, by rw [h3]; exact hln, horder, hs⟩⟩
  intro d hd hp
  have := prob_some_pos hp
  rw [hd] at this
  exact (h5 d hd this).1

/-- Four rows, one column; no single stump classifies all of them. -/
noncomputable def exRealSample : Sample ℝ :=
  { nameToIndex := [("x", 0)], features := [.dense ⟨"x", [0, 1, 2, 3]⟩], target := [-1, -1, 1, -1], nSample := 4, nFeature := 1 }

noncomputable def exRealEnv : TreeEnv ℝ := ⟨-1000, 1000, log, fun m => m⟩

/-- Single-test trees over four bins. -/
noncomputable def exRealTree (c : Criterion) : DecisionTree ℝ :=
  { bins := [("x", [⟨-1000, 3 / 4⟩, ⟨3 / 4, 3 / 2⟩, ⟨3 / 2, 9 / 4⟩, ⟨9 / 4, 1000⟩])], criterion := c, maxDepth := 1 }

theorem exReal_pm : ∀ y ∈ exRealSample.target, y = 1 ∨ y = -1 := by
  intro y hy
  simp [exRealSample] at hy
  tauto

theorem exReal_ok (c : Criterion) : TreesOk exRealEnv (exRealTree c) exRealSample := by
  have hs : SampleOk exRealSample := by
    refine ⟨rfl, by simp [exRealSample, Feature.name], rfl, ?_, rfl⟩
    intro f hf
    simp only [exRealSample, List.mem_singleton] at hf
    subst hf; rfl
  refine ⟨?_, ?_, by simp [exRealTree], fun _ => rfl, fun m => List.Perm.refl _, hs⟩
  · intro d hd hp
    have hpos := prob_some_pos hp
    rw [hd] at hpos
    refine ⟨by norm_num [exRealEnv], fun m => List.Perm.refl _, hs, by simp [exRealSample], hd, hpos, ?_, ?_⟩
    · intro f hf
      simp only [exRealSample, List.mem_singleton] at hf
      subst hf
      refine ⟨_, rfl, ?_⟩
      simp only [Tiles, exRealEnv]
      norm_num
    · intro f hf i hi
      simp only [exRealSample, List.mem_singleton] at hf
      subst hf
      have hi' : i < 4 := hi
      interval_cases i <;> norm_num [Feature.val, exRealEnv]
  · exact exReal_pm

/-- The vote `u(3/2) - u(9/4) - u(-1000)` of stumps, each with weight a third, has margin a third. -/
theorem exReal_margin (c : Criterion) : StumpMargin exRealSample (exRealTree c).bins (1 / 3) := by
  refine ⟨[(1 / 3, .dense ⟨"x", [0, 1, 2, 3]⟩, 3 / 2), (-1 / 3, .dense ⟨"x", [0, 1, 2, 3]⟩, 9 / 4),
    (-1 / 3, .dense ⟨"x", [0, 1, 2, 3]⟩, -1000)], ?_, ?_, ?_⟩
  · intro p hp
    simp only [List.mem_cons, List.not_mem_nil, or_false] at hp
    rcases hp with rfl | rfl | rfl
    · exact ⟨by simp [exRealSample], _, rfl, ⟨3 / 4, 3 / 2⟩, by simp, .inr rfl⟩
    · exact ⟨by simp [exRealSample], _, rfl, ⟨3 / 2, 9 / 4⟩, by simp, .inr rfl⟩
    · exact ⟨by simp [exRealSample], _, rfl, ⟨-1000, 3 / 4⟩, by simp, .inl rfl⟩
  · norm_num [abs_of_neg, abs_of_pos]
  · intro i hi
    have hi' : i < 4 := hi
    interval_cases i <;> norm_num [exRealSample, stump, Feature.val]

theorem exReal_binary : exRealSample.isValidBinaryInstance = .ok () := by
  rw [valid_binary_iff_partial]
  · refine ⟨rfl, ?_, ?_⟩
    · intro y hy
      rcases exReal_pm y hy with h | h
      · exact ⟨1, by rw [h]; simp⟩
      · exact ⟨-1, by rw [h]; simp⟩
    · unfold distinct
      have : exRealSample.target.toFinset = {-1, 1} := by
        ext y; simp [exRealSample]; tauto
      rw [this, Finset.card_pair]
      norm_num
  · intro y hy _
    rcases exReal_pm y hy with h | h
    · exact ⟨1, by rw [h]; simp, by norm_num, by norm_num⟩
    · exact ⟨-1, by rw [h]; simp, by norm_num, by norm_num⟩

/-- `adaboostv_trees`, `adaboost_trees` and `lpboost_trees` apply: stumps grown with any criterion are boosted to zero
training error on a sample that no single stump gets right. -/
example (c : Criterion) (s₀ : AdaBoost (TreeNode ℝ))
    (h : 2 * log exRealSample.nSample < (treeFactor c * (1 / 3) ^ 2) ^ 2 * adaboostLimit exRealSample.rows s₀) :
    ∃ f qs, (AdaBoost.booster exRealSample.rows).run (treeLearner exRealEnv (exRealTree c) exRealSample)
        (adaboostLimit exRealSample.rows s₀ + 1) s₀ = some (.ok (f, qs)) ∧
      Spec.errors exRealSample.rows (predict (K := ℝ) f) = 0 ∧ AllAnswered exRealEnv (exRealTree c) exRealSample qs :=
  adaboost_trees (exReal_ok c) exReal_binary (by norm_num) (exReal_margin c) s₀ h

end Miniboosts.Props
