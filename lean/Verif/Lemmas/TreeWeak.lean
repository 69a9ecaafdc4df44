import Verif.Props.DecisionTree
import Mathlib.Analysis.SpecialFunctions.Log.Deriv
import Mathlib.Analysis.Calculus.Deriv.MeanValue
import Mathlib.Analysis.SpecialFunctions.Log.NegMulLog

set_option linter.unusedSectionVars false

/-! # The four criteria on two labels: every one of them looks for splits with a large edge -/

namespace Miniboosts.Props

open Miniboosts Spec

section generic

variable {K : Type*} [Field K] [LinearOrder K] [IsStrictOrderedRing K] [FloorRing K]

/-- Sum over the occurring labels, when they are `±1`. -/
theorem sum_labels {rows : List (Row K)} (h : ∀ r ∈ rows, r.lab = 1 ∨ r.lab = -1) (F : Int → K)
    (h0 : ∀ y, y ∉ labels rows → F y = 0) : ∑ y ∈ labels rows, F y = F 1 + F (-1) := by
  have hsub : labels rows ⊆ {1, -1} := by
    intro y hy
    simp only [labels, List.mem_toFinset, List.mem_map] at hy
    obtain ⟨r, hr, rfl⟩ := hy
    simpa using h r hr
  rw [Finset.sum_subset hsub (fun y _ hy => h0 y hy), Finset.sum_pair (by decide)]

theorem below_zero {rows : List (Row K)} (t : K) {y : Int} (h : y ∉ labels rows) : below rows t y = 0 := by
  unfold below
  apply List.sum_eq_zero
  intro x hx
  obtain ⟨r, hr, rfl⟩ := List.mem_map.1 hx
  rw [if_neg]
  rintro ⟨_, h2⟩
  apply h
  simp only [labels, List.mem_toFinset, List.mem_map]
  exact ⟨r, hr, h2⟩

theorem above_zero {rows : List (Row K)} (t : K) {y : Int} (h : y ∉ labels rows) : above rows t y = 0 := by
  unfold above
  apply List.sum_eq_zero
  intro x hx
  obtain ⟨r, hr, rfl⟩ := List.mem_map.1 hx
  rw [if_neg]
  rintro ⟨_, h2⟩
  apply h
  simp only [labels, List.mem_toFinset, List.mem_map]
  exact ⟨r, hr, h2⟩

theorem below_nonneg {rows : List (Row K)} (h : ∀ r ∈ rows, 0 ≤ r.w) (t : K) (y : Int) : 0 ≤ below rows t y := by
  unfold below
  apply List.sum_nonneg
  intro x hx
  obtain ⟨r, hr, rfl⟩ := List.mem_map.1 hx
  split
  · exact h r hr
  · exact le_rfl

theorem above_nonneg {rows : List (Row K)} (h : ∀ r ∈ rows, 0 ≤ r.w) (t : K) (y : Int) : 0 ≤ above rows t y := by
  unfold above
  apply List.sum_nonneg
  intro x hx
  obtain ⟨r, hr, rfl⟩ := List.mem_map.1 hx
  split
  · exact h r hr
  · exact le_rfl

variable {s : Sample K} {dist : List K}

/-- The merit of splitting the rows: the edge of the two-leaf tree. -/
def merit (s : Sample K) (dist : List K) (idx : List Nat) (rule : Splitter K) : K :=
  labelSum s dist (idx.filter (leftOf s rule)) ^ 2 / weightOf dist (idx.filter (leftOf s rule))
    + labelSum s dist (idx.filter (fun i => !leftOf s rule i)) ^ 2 / weightOf dist (idx.filter (fun i => !leftOf s rule i))

theorem asI32_pm' {y : K} (h : y = 1 ∨ y = -1) : (y = 1 ∧ asI32 y = 1) ∨ (y = -1 ∧ asI32 y = -1) := by
  have := asI32_pm h
  rcases h with h | h
  · left
    refine ⟨h, ?_⟩
    rw [h] at this
    rw [h]
    exact_mod_cast this
  · right
    refine ⟨h, ?_⟩
    rw [h] at this
    rw [h]
    exact_mod_cast this

theorem below_pm {idx : List Nat} (hpm : ∀ i ∈ idx, s.target.getD i 0 = 1 ∨ s.target.getD i 0 = -1) (name : String) (t : K) :
    below (idx.map (rowAt s dist name)) t 1 + below (idx.map (rowAt s dist name)) t (-1)
        = weightOf dist (idx.filter (leftOf s ⟨name, t⟩)) ∧
      below (idx.map (rowAt s dist name)) t 1 - below (idx.map (rowAt s dist name)) t (-1)
        = labelSum s dist (idx.filter (leftOf s ⟨name, t⟩)) := by
  induction idx with
  | nil => simp [below, weightOf, labelSum]
  | cons i idx ih =>
    obtain ⟨h1, h2⟩ := ih (fun j hj => hpm j (List.mem_cons_of_mem _ hj))
    have hb : ∀ y, below ((i :: idx).map (rowAt s dist name)) t y
        = (if cell s name i < t ∧ asI32 (s.target.getD i 0) = y then dist.getD i 0 else 0) + below (idx.map (rowAt s dist name)) t y := by
      intro y; simp [below, rowAt]
    rw [hb, hb]
    by_cases hl : cell s name i < t
    · have hl' : leftOf s ⟨name, t⟩ i = true := by simp [leftOf, hl]
      rw [List.filter_cons_of_pos hl']
      have e1 : weightOf dist (i :: idx.filter (leftOf s ⟨name, t⟩)) = dist.getD i 0 + weightOf dist (idx.filter (leftOf s ⟨name, t⟩)) := by
        simp [weightOf]
      have e2 : labelSum s dist (i :: idx.filter (leftOf s ⟨name, t⟩))
          = dist.getD i 0 * s.target.getD i 0 + labelSum s dist (idx.filter (leftOf s ⟨name, t⟩)) := by
        simp [labelSum]
      rw [e1, e2, ← h1, ← h2]
      rcases asI32_pm' (hpm i (by simp)) with ⟨a, b⟩ | ⟨a, b⟩
      · rw [if_pos ⟨hl, b⟩, if_neg (by rintro ⟨_, h⟩; rw [b] at h; exact absurd h (by decide)), a]
        constructor <;> ring
      · rw [if_neg (by rintro ⟨_, h⟩; rw [b] at h; exact absurd h (by decide)), if_pos ⟨hl, b⟩, a]
        constructor <;> ring
    · have hl' : ¬ leftOf s ⟨name, t⟩ i = true := by simp [leftOf, hl]
      rw [List.filter_cons_of_neg hl']
      simp only [hl, false_and, if_false, zero_add]
      exact ⟨h1, h2⟩

theorem above_pm {idx : List Nat} (hpm : ∀ i ∈ idx, s.target.getD i 0 = 1 ∨ s.target.getD i 0 = -1) (name : String) (t : K) :
    above (idx.map (rowAt s dist name)) t 1 + above (idx.map (rowAt s dist name)) t (-1)
        = weightOf dist (idx.filter (fun i => !leftOf s ⟨name, t⟩ i)) ∧
      above (idx.map (rowAt s dist name)) t 1 - above (idx.map (rowAt s dist name)) t (-1)
        = labelSum s dist (idx.filter (fun i => !leftOf s ⟨name, t⟩ i)) := by
  induction idx with
  | nil => simp [above, weightOf, labelSum]
  | cons i idx ih =>
    obtain ⟨h1, h2⟩ := ih (fun j hj => hpm j (List.mem_cons_of_mem _ hj))
    have hb : ∀ y, above ((i :: idx).map (rowAt s dist name)) t y
        = (if t ≤ cell s name i ∧ asI32 (s.target.getD i 0) = y then dist.getD i 0 else 0) + above (idx.map (rowAt s dist name)) t y := by
      intro y; simp [above, rowAt]
    rw [hb, hb]
    by_cases hl : t ≤ cell s name i
    · have hl' : (!leftOf s ⟨name, t⟩ i) = true := by simp [leftOf, hl]
      rw [List.filter_cons_of_pos (p := fun i => !leftOf s ⟨name, t⟩ i) hl']
      have e1 : weightOf dist (i :: idx.filter (fun i => !leftOf s ⟨name, t⟩ i))
          = dist.getD i 0 + weightOf dist (idx.filter (fun i => !leftOf s ⟨name, t⟩ i)) := by
        simp [weightOf]
      have e2 : labelSum s dist (i :: idx.filter (fun i => !leftOf s ⟨name, t⟩ i))
          = dist.getD i 0 * s.target.getD i 0 + labelSum s dist (idx.filter (fun i => !leftOf s ⟨name, t⟩ i)) := by
        simp [labelSum]
      rw [e1, e2, ← h1, ← h2]
      rcases asI32_pm' (hpm i (by simp)) with ⟨a, b⟩ | ⟨a, b⟩
      · rw [if_pos ⟨hl, b⟩, if_neg (by rintro ⟨_, h⟩; rw [b] at h; exact absurd h (by decide)), a]
        constructor <;> ring
      · rw [if_neg (by rintro ⟨_, h⟩; rw [b] at h; exact absurd h (by decide)), if_pos ⟨hl, b⟩, a]
        constructor <;> ring
    · have hl' : ¬ (!leftOf s ⟨name, t⟩ i) = true := by simp [leftOf, not_le.1 hl]
      rw [List.filter_cons_of_neg (p := fun i => !leftOf s ⟨name, t⟩ i) hl']
      simp only [hl, false_and, if_false, zero_add]
      exact ⟨h1, h2⟩

theorem rows_pm {idx : List Nat} (hpm : ∀ i ∈ idx, s.target.getD i 0 = 1 ∨ s.target.getD i 0 = -1) (name : String) :
    ∀ r ∈ idx.map (rowAt s dist name), r.lab = 1 ∨ r.lab = -1 := by
  intro r hr
  obtain ⟨i, hi, rfl⟩ := List.mem_map.1 hr
  rcases asI32_pm' (hpm i hi) with ⟨_, b⟩ | ⟨_, b⟩
  · exact .inl b
  · exact .inr b

/-- One side of the Gini value. -/
theorem gini_side {rows : List (Row K)} (h : ∀ r ∈ rows, r.lab = 1 ∨ r.lab = -1) (w : Int → K) (hw : ∀ y, 0 ≤ w y)
    (h0 : ∀ y, y ∉ labels rows → w y = 0) :
    (∑ y ∈ labels rows, w y) * giniOf (labels rows) w = (w 1 + w (-1)) / 2 - (w 1 - w (-1)) ^ 2 / (w 1 + w (-1)) / 2 := by
  unfold giniOf
  rw [sum_labels h w h0, sum_labels h (fun y => (w y / (w 1 + w (-1))) ^ 2) (fun y hy => by simp [h0 y hy])]
  have n1 := hw 1
  have n2 := hw (-1)
  split
  · have e1 : w 1 = 0 := by linarith
    have e2 : w (-1) = 0 := by linarith
    simp [e1, e2]
  · rename_i hp
    have hp' : w 1 + w (-1) ≠ 0 := (not_le.1 hp).ne'
    field_simp
    ring

/-- The Gini value is half the weight minus half the merit. -/
theorem gini_value {idx : List Nat} (hr : ∀ i ∈ idx, 0 < dist.getD i 0)
    (hpm : ∀ i ∈ idx, s.target.getD i 0 = 1 ∨ s.target.getD i 0 = -1) (ln : K → K) (name : String) (t : K) :
    splitValue ln (idx.map (rowAt s dist name)) t .gini = weightOf dist idx / 2 - merit s dist idx ⟨name, t⟩ / 2 := by
  have hw : ∀ r ∈ idx.map (rowAt s dist name), 0 ≤ r.w := by
    intro r h
    obtain ⟨i, hi, rfl⟩ := List.mem_map.1 h
    exact (hr i hi).le
  simp only [splitValue]
  rw [gini_side (rows_pm hpm name) _ (below_nonneg hw t) (fun y => below_zero t),
    gini_side (rows_pm hpm name) _ (above_nonneg hw t) (fun y => above_zero t)]
  obtain ⟨b1, b2⟩ := below_pm (dist := dist) hpm name t
  obtain ⟨a1, a2⟩ := above_pm (dist := dist) hpm name t
  rw [b1, b2, a1, a2, merit, ← weightOf_filter dist idx (leftOf s ⟨name, t⟩)]
  ring

/-- The twoing value is the merit, less that of no split, up to a factor. -/
theorem twoing_value {idx : List Nat} (hne : idx ≠ []) (hr : ∀ i ∈ idx, 0 < dist.getD i 0)
    (hpm : ∀ i ∈ idx, s.target.getD i 0 = 1 ∨ s.target.getD i 0 = -1) (ln : K → K) (name : String) (t : K) :
    splitValue ln (idx.map (rowAt s dist name)) t .twoing
      = (merit s dist idx ⟨name, t⟩ - labelSum s dist idx ^ 2 / weightOf dist idx) / (4 * weightOf dist idx) := by
  have hw : ∀ r ∈ idx.map (rowAt s dist name), 0 ≤ r.w := by
    intro r h
    obtain ⟨i, hi, rfl⟩ := List.mem_map.1 h
    exact (hr i hi).le
  have hpos := weightOf_pos hne hr
  simp only [splitValue]
  have hl := sum_labels (rows_pm (dist := dist) hpm name) _ (fun y => below_zero t (y := y))
  have hrr := sum_labels (rows_pm (dist := dist) hpm name) _ (fun y => above_zero t (y := y))
  rw [hl, hrr, sum_labels (rows_pm (dist := dist) hpm name) (fun y => |below (idx.map (rowAt s dist name)) t y / _ - above (idx.map (rowAt s dist name)) t y / _|)
    (fun y hy => by simp [below_zero t hy, above_zero t hy])]
  obtain ⟨b1, b2⟩ := below_pm (dist := dist) hpm name t
  obtain ⟨a1, a2⟩ := above_pm (dist := dist) hpm name t
  have nb1 := below_nonneg hw t 1
  have nb2 := below_nonneg hw t (-1)
  have na1 := above_nonneg hw t 1
  have na2 := above_nonneg hw t (-1)
  have hsum := weightOf_filter dist idx (leftOf s ⟨name, t⟩)
  have hls := labelSum_filter s dist idx (leftOf s ⟨name, t⟩)
  rw [merit, ← hls, ← hsum, ← b1, ← b2, ← a1, ← a2]
  rw [← hsum, ← b1, ← a1] at hpos
  generalize below (idx.map (rowAt s dist name)) t 1 = p at *
  generalize below (idx.map (rowAt s dist name)) t (-1) = q at *
  generalize above (idx.map (rowAt s dist name)) t 1 = p' at *
  generalize above (idx.map (rowAt s dist name)) t (-1) = q' at *
  by_cases h1 : p + q = 0
  · rw [if_pos (.inl h1)]
    have e1 : p = 0 := by linarith
    have e2 : q = 0 := by linarith
    simp [e1, e2]
  · by_cases h2 : p' + q' = 0
    · rw [if_pos (.inr h2)]
      have e1 : p' = 0 := by linarith
      have e2 : q' = 0 := by linarith
      simp [e1, e2]
    · rw [if_neg (by rw [not_or]; exact ⟨h1, h2⟩)]
      have c1 : q / (p + q) - q' / (p' + q') = -(p / (p + q) - p' / (p' + q')) := by
        field_simp; ring
      rw [c1, abs_neg, ← two_mul, mul_pow, sq_abs]
      have := hpos.ne'
      field_simp
      ring

theorem merit_ge {idx : List Nat} (hr : ∀ i ∈ idx, 0 < dist.getD i 0)
    (hpm : ∀ i ∈ idx, s.target.getD i 0 = 1 ∨ s.target.getD i 0 = -1) (ln : K → K) (name : String) (t : K) :
    splitValue ln (idx.map (rowAt s dist name)) t .edge ^ 2 ≤ weightOf dist idx * merit s dist idx ⟨name, t⟩ := by
  rw [edge_value hpm, sq_abs, merit, ← weightOf_filter dist idx (leftOf s ⟨name, t⟩)]
  by_cases h1 : idx.filter (leftOf s ⟨name, t⟩) = []
  · rw [h1]
    have := fun hne => weightOf_pos (dist := dist) (idx := idx.filter (fun i => !leftOf s ⟨name, t⟩ i)) hne
      (fun i hi => hr i (List.mem_filter.mp hi).1)
    by_cases h2 : idx.filter (fun i => !leftOf s ⟨name, t⟩ i) = []
    · rw [h2]; simp [labelSum, weightOf]
    · have := this h2
      simp only [labelSum, weightOf, List.map_nil, List.sum_nil, sub_zero, zero_add] at *
      rw [zero_pow (by norm_num), zero_div, zero_add, mul_div_cancel₀ _ this.ne']
  · have w1 := weightOf_pos (dist := dist) h1 (fun i hi => hr i (List.mem_filter.mp hi).1)
    by_cases h2 : idx.filter (fun i => !leftOf s ⟨name, t⟩ i) = []
    · rw [h2]
      simp only [labelSum, weightOf, List.map_nil, List.sum_nil, zero_sub, add_zero, neg_sq] at *
      rw [zero_pow (by norm_num), zero_div, add_zero, mul_div_cancel₀ _ w1.ne']
    · have w2 := weightOf_pos (dist := dist) h2 (fun i hi => hr i (List.mem_filter.mp hi).1)
      have key := two_leaves (A := labelSum s dist (idx.filter (fun i => !leftOf s ⟨name, t⟩ i)))
        (B := -labelSum s dist (idx.filter (leftOf s ⟨name, t⟩))) w2 w1
      rw [neg_sq, ← sub_eq_add_neg, div_le_iff₀ (by linarith)] at key
      linarith

/-- The merit is at most the weight. -/
theorem merit_le {idx : List Nat} (hr : ∀ i ∈ idx, 0 < dist.getD i 0)
    (hpm : ∀ i ∈ idx, s.target.getD i 0 = 1 ∨ s.target.getD i 0 = -1) (rule : Splitter K) :
    merit s dist idx rule ≤ weightOf dist idx := by
  have side : ∀ p : Nat → Bool, labelSum s dist (idx.filter p) ^ 2 / weightOf dist (idx.filter p) ≤ weightOf dist (idx.filter p) := by
    intro p
    have h1 := abs_labelSum_le (s := s) (dist := dist) (idx := idx.filter p)
      (fun i hi => hr i (List.mem_filter.mp hi).1) (fun i hi => hpm i (List.mem_filter.mp hi).1)
    have h0 : 0 ≤ weightOf dist (idx.filter p) := le_trans (abs_nonneg _) h1
    rcases h0.eq_or_lt with h | h
    · rw [← h]; simp
    · rw [div_le_iff₀ h, ← sq]; exact sq_le_of_abs h1
  rw [merit, ← weightOf_filter dist idx (leftOf s rule)]
  exact add_le_add (side _) (side _)

/-- A split that separates nothing has the merit of no split. -/
theorem merit_trivial {idx : List Nat} {rule : Splitter K}
    (h : idx.filter (leftOf s rule) = [] ∨ idx.filter (fun i => !leftOf s rule i) = []) :
    merit s dist idx rule = labelSum s dist idx ^ 2 / weightOf dist idx := by
  rw [merit, ← weightOf_filter dist idx (leftOf s rule), ← labelSum_filter s dist idx (leftOf s rule)]
  rcases h with h | h <;> rw [h] <;> simp [labelSum, weightOf]

/-- The edge of a trained tree of depth at least one is at least `κ` times the merit of every candidate split, when
the criterion chooses splits with that property. -/
theorem tree_merit {env : TreeEnv K} {t : DecisionTree K} (ht : TrainOk env t s dist)
    (hdepth : 0 < t.maxDepth) (hlab : ∀ i ∈ trainRows s dist, s.target.getD i 0 = 1 ∨ s.target.getD i 0 = -1)
    {node : TrainNode K} (hn : DecisionTree.fullTree env t s dist t.maxDepth (trainRows s dist) = .ok node)
    (hg : Grown s dist (trainRows s dist) node)
    (bnd : K) (hbw : bnd ≤ weightOf dist (trainRows s dist))
    (hbnd : ∀ f ∈ s.features, ∀ bt, OptimalSplit env.ln t.criterion t.bins s dist (trainRows s dist) f.name bt →
      bnd ≤ merit s dist (trainRows s dist) ⟨f.name, bt⟩) :
    bnd ≤ treeEdge s dist (trainRows s dist) (TreeNode.ofTrain node) := by
  have hr : RowsOk s dist (trainRows s dist) := rowsOk_train ht.some_weight
  set idx := trainRows s dist with hidx
  have hpos := weightOf_pos hr.1 (fun i hi => (hr.2 i hi).2)
  have hge := grown_edge node hr hlab hg
  obtain ⟨depth, hdep⟩ : ∃ d, t.maxDepth = d + 1 := ⟨t.maxDepth - 1, by omega⟩
  rw [hdep] at hn
  obtain ⟨c, l, c1, c2⟩ := confidenceAndLoss_ok ht.order (s := s) (dist := dist) hr.1
      (fun i hi => ⟨by rw [ht.sample.labels]; exact (hr.2 i hi).1, by rw [ht.weights]; exact (hr.2 i hi).1, (hr.2 i hi).2⟩)
  unfold DecisionTree.fullTree at hn
  rw [sumDist_ok (fun i hi => by rw [ht.weights]; exact (hr.2 i hi).1), c1] at hn
  simp only at hn
  split at hn
  · rename_i hl0
    refine le_trans ?_ hge
    refine hbw.trans ?_
    obtain ⟨_, y, p, a, bb, _, d⟩ := c2
    obtain ⟨q1, q2, q3⟩ := pm_class (s := s) (dist := dist) hlab
    have hp : p = weightOf dist idx := by rw [hl0] at d; linarith
    have n1 := classW_nonneg (s := s) (fun i hi => (hr.2 i hi).2) 1
    have n2 := classW_nonneg (s := s) (fun i hi => (hr.2 i hi).2) (-1)
    have hy : y = 1 ∨ y = -1 := by
      by_contra hcon
      rw [not_or] at hcon
      rw [q3 y hcon.1 hcon.2] at a
      linarith
    have habs : labelSum s dist idx ^ 2 = weightOf dist idx ^ 2 := by
      rw [← q2]
      rcases hy with rfl | rfl
      · have : classW s dist idx (-1) = 0 := by linarith
        rw [this, sub_zero, ← a, hp]
      · have : classW s dist idx 1 = 0 := by linarith
        rw [this, zero_sub, neg_sq, ← a, hp]
    rw [habs, sq, mul_div_assoc, div_self hpos.ne', mul_one]
  · obtain ⟨f, hf, bt, b1, _, b3⟩ := best_split_optimal ht t.criterion hr.1 hr.2
    rw [b1] at hn
    simp only at hn
    rw [splitRows_ok ht.sample hf bt idx (fun i hi => (hr.2 i hi).1)] at hn
    simp only at hn
    have hopt := hbnd f hf bt b3
    split at hn
    · rename_i hemp
      rw [merit_trivial hemp] at hopt
      exact hopt.trans hge
    · rename_i hlr
      rw [not_or] at hlr
      have rl := rowsOk_filter hr hlr.1
      have rr := rowsOk_filter hr hlr.2
      obtain ⟨n1, g1⟩ := fullTree_ok ht depth _ rl
      obtain ⟨n2, g2⟩ := fullTree_ok ht depth _ rr
      rw [g1, g2] at hn
      simp only [Except.ok.injEq] at hn
      subst hn
      have G1 := fullTree_grown ht.order ht.sample ht.weights _ _ _ rl g1
      have G2 := fullTree_grown ht.order ht.sample ht.weights _ _ _ rr g2
      have E1 := grown_edge n1 rl (fun i hi => hlab i (List.mem_filter.mp hi).1) G1
      have E2 := grown_edge n2 rr (fun i hi => hlab i (List.mem_filter.mp hi).1) G2
      simp only [TrainNode.mkBranch, TreeNode.ofTrain, treeEdge_branch]
      rw [merit] at hopt
      linarith

end generic

/-! ## Entropy -/

open Real

/-- `ln 2 - H((1+m)/2) ≤ m²`. -/
theorem entropy_deficit_le {p q : ℝ} (hp : 0 ≤ p) (hq : 0 ≤ q) (h1 : p + q = 1) :
    log 2 - (negMulLog p + negMulLog q) ≤ (p - q) ^ 2 := by
  have key : ∀ x : ℝ, 0 ≤ x → x * log 2 - negMulLog x ≤ x * (2 * x - 1) := by
    intro x hx
    unfold negMulLog
    rcases hx.eq_or_lt with h | h
    · rw [← h]; simp
    · have : log 2 + log x = log (2 * x) := (log_mul (by norm_num) h.ne').symm
      have h2 := log_le_sub_one_of_pos (x := 2 * x) (by linarith)
      nlinarith
  have a := key p hp
  have b := key q hq
  have e : q = 1 - p := by linarith
  subst e
  nlinarith

/-- `h(m) = (1+m) ln(1+m) + (1-m) ln(1-m) - m²` is not negative on `[0,1)`. -/
theorem pinsker_aux {m : ℝ} (h0 : 0 ≤ m) (h1 : m < 1) : m ^ 2 ≤ (1 + m) * log (1 + m) + (1 - m) * log (1 - m) := by
  have hmono : MonotoneOn (fun m : ℝ => (1 + m) * log (1 + m) + (1 - m) * log (1 - m) - m ^ 2) (Set.Ico 0 1) := by
    have hd : ∀ x : ℝ, 0 ≤ x → x < 1 → HasDerivAt (fun m : ℝ => (1 + m) * log (1 + m) + (1 - m) * log (1 - m) - m ^ 2)
        (log (1 + x) - log (1 - x) - 2 * x) x := by
      intro x hx0 hx1
      have a : HasDerivAt (fun m : ℝ => 1 + m) 1 x := by simpa using (hasDerivAt_id x).const_add 1
      have b : HasDerivAt (fun m : ℝ => 1 - m) (-1) x := by simpa using (hasDerivAt_id x).const_sub 1
      have c := a.mul (a.log (by linarith))
      have d := b.mul (b.log (by linarith))
      have e := (c.add d).sub (hasDerivAt_pow 2 x)
      refine e.congr_deriv ?_
      have n1 : 1 + x ≠ 0 := by linarith
      have n2 : 1 - x ≠ 0 := by linarith
      simp only [Nat.cast_ofNat, Nat.add_one_sub_one, pow_one]
      field_simp
      ring
    apply monotoneOn_of_deriv_nonneg (convex_Ico 0 1)
    · exact fun x hx => (hd x hx.1 hx.2).continuousAt.continuousWithinAt
    · intro x hx
      rw [interior_Ico] at hx
      exact (hd x hx.1.le hx.2).differentiableAt.differentiableWithinAt
    · intro x hx
      rw [interior_Ico] at hx
      rw [(hd x hx.1.le hx.2).deriv]
      have hs := hasSum_log_sub_log_of_abs_lt_one (x := x) (by rw [abs_of_pos hx.1]; exact hx.2)
      have := hs.summable.sum_le_tsum (Finset.range 1) (fun k _ => by have := hx.1.le; positivity)
      rw [hs.tsum_eq] at this
      simp at this
      linarith
  have := hmono (Set.left_mem_Ico.2 one_pos) ⟨h0, h1⟩ h0
  simp only [add_zero, log_one, mul_zero, sub_zero] at this
  norm_num at this
  linarith

/-- `m²/2 ≤ ln 2 - H((1+m)/2)`. -/
theorem entropy_deficit_ge {p q : ℝ} (hp : 0 ≤ p) (hq : 0 ≤ q) (h1 : p + q = 1) :
    (p - q) ^ 2 / 2 ≤ log 2 - (negMulLog p + negMulLog q) := by
  wlog hle : q ≤ p with H
  · have := H hq hp (by linarith) (not_le.1 hle).le
    rw [add_comm (negMulLog q), ← neg_sub p q, neg_sq] at this
    exact this
  rcases hq.eq_or_lt with h | h
  · have : p = 1 := by linarith
    rw [← h, this]
    have := one_sub_inv_le_log_of_pos (x := (2 : ℝ)) (by norm_num)
    norm_num at this
    simp [negMulLog]
    linarith
  · have hm := pinsker_aux (m := p - q) (by linarith) (by linarith)
    have e1 : 1 + (p - q) = 2 * p := by linarith
    have e2 : 1 - (p - q) = 2 * q := by linarith
    rw [e1, e2, log_mul (by norm_num) (by linarith), log_mul (by norm_num) h.ne'] at hm
    unfold negMulLog
    have : p * log 2 + q * log 2 = log 2 := by rw [← add_mul, h1, one_mul]
    nlinarith

variable {s : Sample ℝ} {dist : List ℝ}

theorem entropy_side {rows : List (Row ℝ)} (h : ∀ r ∈ rows, r.lab = 1 ∨ r.lab = -1) (w : Int → ℝ) (hw : ∀ y, 0 ≤ w y)
    (h0 : ∀ y, y ∉ labels rows → w y = 0) :
    (w 1 + w (-1)) * log 2 - (w 1 - w (-1)) ^ 2 / (w 1 + w (-1)) ≤ (∑ y ∈ labels rows, w y) * entropyOf log (labels rows) w ∧
    (∑ y ∈ labels rows, w y) * entropyOf log (labels rows) w ≤ (w 1 + w (-1)) * log 2 - (w 1 - w (-1)) ^ 2 / (w 1 + w (-1)) / 2 := by
  unfold entropyOf
  have n1 := hw 1
  have n2 := hw (-1)
  have hterm : ∀ x : ℝ, 0 ≤ x → (if x ≤ 0 then (0 : ℝ) else -x * log x) = negMulLog x := by
    intro x hx
    split
    · have : x = 0 := le_antisymm (by assumption) hx
      simp [this]
    · rfl
  rw [sum_labels h w h0]
  split
  · have e1 : w 1 = 0 := by linarith
    have e2 : w (-1) = 0 := by linarith
    simp [e1, e2]
  · rename_i hp
    have hp' : 0 < w 1 + w (-1) := not_le.1 hp
    rw [sum_labels h _ (fun y hy => by simp [h0 y hy]), hterm _ (div_nonneg n1 hp'.le), hterm _ (div_nonneg n2 hp'.le)]
    have hsum : w 1 / (w 1 + w (-1)) + w (-1) / (w 1 + w (-1)) = 1 := by rw [← add_div, div_self hp'.ne']
    have a := entropy_deficit_le (div_nonneg n1 hp'.le) (div_nonneg n2 hp'.le) hsum
    have b := entropy_deficit_ge (div_nonneg n1 hp'.le) (div_nonneg n2 hp'.le) hsum
    generalize negMulLog (w 1 / (w 1 + w (-1))) + negMulLog (w (-1) / (w 1 + w (-1))) = E at *
    have e : (w 1 / (w 1 + w (-1)) - w (-1) / (w 1 + w (-1))) ^ 2 = (w 1 - w (-1)) ^ 2 / (w 1 + w (-1)) / (w 1 + w (-1)) := by
      rw [← sub_div, div_pow, sq (w 1 + w (-1)), div_div]
    rw [e] at a b
    generalize (w 1 - w (-1)) ^ 2 / (w 1 + w (-1)) = Q at *
    have h1 : (w 1 + w (-1)) * (Q / (w 1 + w (-1))) = Q := mul_div_cancel₀ _ hp'.ne'
    constructor
    · have := mul_le_mul_of_nonneg_left a hp'.le
      rw [h1] at this
      linarith
    · have := mul_le_mul_of_nonneg_left b hp'.le
      rw [← mul_div_assoc, h1] at this
      linarith

theorem entropy_value {idx : List Nat} (hr : ∀ i ∈ idx, 0 < dist.getD i 0)
    (hpm : ∀ i ∈ idx, s.target.getD i 0 = 1 ∨ s.target.getD i 0 = -1) (name : String) (t : ℝ) :
    weightOf dist idx * log 2 - merit s dist idx ⟨name, t⟩ ≤ splitValue log (idx.map (rowAt s dist name)) t .entropy ∧
      splitValue log (idx.map (rowAt s dist name)) t .entropy ≤ weightOf dist idx * log 2 - merit s dist idx ⟨name, t⟩ / 2 := by
  have hw : ∀ r ∈ idx.map (rowAt s dist name), 0 ≤ r.w := by
    intro r h
    obtain ⟨i, hi, rfl⟩ := List.mem_map.1 h
    exact (hr i hi).le
  simp only [splitValue]
  obtain ⟨l1, l2⟩ := entropy_side (rows_pm hpm name) _ (below_nonneg hw t) (fun y => below_zero t)
  obtain ⟨r1, r2⟩ := entropy_side (rows_pm hpm name) _ (above_nonneg hw t) (fun y => above_zero t)
  obtain ⟨b1, b2⟩ := below_pm (dist := dist) hpm name t
  obtain ⟨a1, a2⟩ := above_pm (dist := dist) hpm name t
  rw [b1, b2] at l1 l2
  rw [a1, a2] at r1 r2
  rw [merit, ← weightOf_filter dist idx (leftOf s ⟨name, t⟩)]
  constructor <;> linarith

end Miniboosts.Props
