import Verif.Lemmas.FloatGraphSep
import Verif.Props.FloatEdge
import Verif.Props.TreeBoosters

/-! # GraphSepBoost on decision trees in `f64` (C109) -/

namespace Miniboosts.Props

open Miniboosts Spec F64

section general

variable {H X : Type*} [Classifier H X F64]

/-- C109, any learner: on at most `10⁵` examples GraphSepBoost in `f64` asks the learner only with rounded probability vectors; if the
hypotheses' errors, for the weights before rounding, are at most `1/2 - g`, it returns, after at most `ln(m²)/(2g) + 1` calls, a
hypothesis that predicts every label. -/
theorem graphsep_f64 (S : Examples X ℝ) (hS : S.length ≤ 10 ^ 5) (hvalid : checkBinary S = .ok ()) (hpm : PmLabels S) (s₀ : GraphSepBoost H)
    (wl : WeakLearner F64 H) {g : ℝ} (hg : 0 < g)
    (hwl : ∀ k d, d.length = S.length → IsProb d → weightedError S d (predictF (wl k (d.map rnd))) ≤ 1 / 2 - g) :
    ∃ n f qs, (GraphSepF.booster S).run wl n s₀ = some (.ok (f, qs)) ∧ errors S (GraphSepF.predict f) = 0 ∧
      (∀ q ∈ qs, ∃ d : List ℝ, q = d.map rnd ∧ d.length = S.length ∧ IsProb d) ∧
      (qs = [] ∨ (qs.length : ℝ) ≤ Real.log ((S.length : ℝ) ^ 2) / (2 * g) + 1) := by
  refine @GraphSepF.zero_error_sim H X ⟨fun h x => (predictF h x : ℝ)⟩ conf (fun h x => ?_) S hS hvalid hpm s₀ wl g hg hwl
  show (if (0 : ℝ) ≤ ((predictF h x : Int) : ℝ) then 1 else -1) = predictF h x
  unfold predictF
  by_cases hc : Le (fin 0) (conf h x : F64)
  · simp [hc]
  · simp [hc]

end general

/-! ## Signs of the answers of a tree -/

/-- The sign of a number, with the sign of zero positive. -/
noncomputable def sgn (x : ℝ) : ℝ := if 0 ≤ x then 1 else -1

theorem leaf_sign {S W x : ℝ} (hW : 0 < W) (hS : |S| ≤ W) (hx : |x| ≤ 1) (h : |x - S / W| ≤ 1 / 10 ^ 8) : S * x - 2 / 10 ^ 8 * W ≤ S * sgn x := by
  have hm : |S / W| ≤ 1 := by rw [abs_div, abs_of_pos hW]; exact (div_le_one hW).mpr hS
  obtain ⟨m, hm'⟩ : ∃ m, m = S / W := ⟨_, rfl⟩
  have hSm : S = m * W := by rw [hm', div_mul_cancel₀ _ hW.ne']
  rw [← hm'] at hm h
  have a1 := abs_le.mp hm
  have a2 := abs_le.mp hx
  have a3 := abs_le.mp h
  have key : m * x - 2 / 10 ^ 8 ≤ m * sgn x := by
    unfold sgn
    split
    · rename_i h0
      nlinarith
    · rename_i h0
      push Not at h0
      nlinarith
  rw [hSm]
  nlinarith

theorem treeRel_sign {s : Sample ℝ} {dist : List F64} {w : ℕ → ℝ} : ∀ (tree : TreeNode F64) (idx : List ℕ), FTree.TreeRel s w tree idx →
    FTree.Node s dist w idx → FTree.Binary s idx →
    FTree.edgeOn s w tree idx - 2 / 10 ^ 8 * (idx.map w).sum ≤ (idx.map fun i => w i * (s.target.getD i 0 * sgn (FTree.ans s tree i))).sum := by
  intro tree
  induction tree with
  | leaf c =>
    rintro idx ⟨hne, x, rfl, h2, h3⟩ hN hb
    have hW := hN.wpos hne
    have hS := FTree.abs_signedWeight hb hN.nonneg
    have e : ∀ z : ℝ, (idx.map fun i => w i * (s.target.getD i 0 * z)).sum = FTree.signedWeight s w idx * z := by
      intro z
      unfold FTree.signedWeight
      rw [← List.sum_map_mul_right]
      congr 1
      refine List.map_congr_left fun i _ => ?_
      ring
    have := leaf_sign hW hS h3 h2
    have e1 : FTree.edgeOn s w (.leaf (fin x)) idx = FTree.signedWeight s w idx * x := e x
    have e2 : (idx.map fun i => w i * (s.target.getD i 0 * sgn (FTree.ans s (.leaf (fin x)) i))).sum = FTree.signedWeight s w idx * sgn x := e (sgn x)
    rw [e1, e2]
    exact this
  | branch rule lt rt ihl ihr =>
    rintro idx ⟨p, hp, hl, hr⟩ hN hb
    have h1 := ihl _ hl (hN.filter p) (hb.filter p)
    have h2 := ihr _ hr (hN.filter _) (hb.filter _)
    rw [FTree.edgeOn_branch hp]
    have h4 := FTree.weight_filter w idx p
    have h5 : (idx.map fun i => w i * (s.target.getD i 0 * sgn (FTree.ans s (.branch rule lt rt) i))).sum =
        ((idx.filter p).map fun i => w i * (s.target.getD i 0 * sgn (FTree.ans s lt i))).sum +
          ((idx.filter fun i => !p i).map fun i => w i * (s.target.getD i 0 * sgn (FTree.ans s rt i))).sum := by
      rw [← sum_filter_add p (fun i => w i * (s.target.getD i 0 * sgn (FTree.ans s (.branch rule lt rt) i))) idx]
      congr 1
      · congr 1
        refine List.map_congr_left fun i hi => ?_
        obtain ⟨q1, q2⟩ := List.mem_filter.mp hi
        have : FTree.ans s (.branch rule lt rt) i = FTree.ans s lt i := by
          unfold FTree.ans
          conv_lhs => unfold FTree.confidence
          rw [hp i q1, q2]
        rw [this]
      · congr 1
        refine List.map_congr_left fun i hi => ?_
        obtain ⟨q1, q2⟩ := List.mem_filter.mp hi
        have : FTree.ans s (.branch rule lt rt) i = FTree.ans s rt i := by
          unfold FTree.ans
          conv_lhs => unfold FTree.confidence
          rw [hp i q1]
          cases hpi : p i with
          | true => rw [hpi] at q2; simp at q2
          | false => rfl
        rw [this]
    rw [h5]
    have h6 : 2 / 10 ^ 8 * ((idx.filter p).map w).sum + 2 / 10 ^ 8 * ((idx.filter fun i => !p i).map w).sum = 2 / 10 ^ 8 * (idx.map w).sum := by rw [← mul_add, h4]
    linarith

/-- C109, the signs: the signs of a tree's answers have at least the tree's edge, up to `3·10⁻⁸`. -/
theorem tree_f64_signs (L : Libm) (t : FTree.Tree) (s : Sample ℝ) (hs : SampleOk s) (hn : s.nSample ≤ 10 ^ 5) (hy : ∀ y ∈ s.target, y = 1 ∨ y = -1)
    (w : List ℝ) (hw : TreeWeights s.nSample w) (tree : TreeNode F64) (hp : FTree.Produce L t s (w.map fin) (some tree)) :
    exactEdge s.rows (w.map fin) tree - 3 / 10 ^ 8 ≤
      ((List.range s.nSample).map fun i => w.getD i 0 * (s.target.getD i 0 * sgn (FTree.ans s tree i))).sum := by
  classical
  obtain ⟨idx, node, hidx, i2, i3, hf, rfl⟩ := produce_rel hw hn hp
  have hb := tree_binary hs hy i3.row
  have hrel := FTree.ofTrain_rel _ _ (FTree.removeRedundant_rel _ _ (FTree.fullTree_rel L hs _ idx i3 i2 hb node hf))
  have h0 := weights_nonneg hw
  have h := treeRel_sign _ idx hrel i3 hb
  have hsum := i3.sum
  have e3 : FTree.edgeOn s (fun i => w.getD i 0) (FTree.ofTrain (FTree.removeRedundant node)) idx = exactEdge s.rows (w.map fin) (FTree.ofTrain (FTree.removeRedundant node)) := by
    rw [exactEdge_rows hw.length]
    unfold FTree.edgeOn
    rw [hidx, sum_positive _ h0]
  have e1 : (idx.map fun i => w.getD i 0).sum = w.sum := by
    rw [hidx, ← weights_sum hw.length]
    have := sum_positive (w := fun i => w.getD i 0) _ h0 fun _ => 1
    simpa using this
  rw [e1, e3] at h
  rw [hidx, sum_positive _ h0] at h
  have := hw.sum
  linarith



/-! ## Trees -/

/-- A vote over tests of the trees' bins (`value < end of a bin`) with weights of total absolute value at most one has margin at least `θ` on
every row. -/
def TestMargin (s : Sample ℝ) (binsMap : List (String × List (Bin F64))) (θ : ℝ) : Prop :=
  ∃ v : List (ℝ × Feature ℝ × ℝ),
    (∀ p ∈ v, p.2.1 ∈ s.features ∧ ∃ bins, HMap.get? binsMap p.2.1.name = some bins ∧ ∃ β ∈ bins, β.stop = fin p.2.2) ∧
    (v.map (fun p => |p.1|)).sum ≤ 1 ∧
    ∀ i < s.nSample, θ ≤ s.target.getD i 0 * (v.map (fun p => p.1 * stump p.2.1 p.2.2 i)).sum

/-- Averaging: some test of the vote has an edge of at least `θ`, up to sign. -/
theorem exists_test {s : Sample ℝ} {v : List (ℝ × Feature ℝ × ℝ)} {dist : List ℝ} {θ : ℝ} (hθ : 0 < θ)
    (v2 : (v.map (fun p => |p.1|)).sum ≤ 1) (v3 : ∀ i < s.nSample, θ ≤ s.target.getD i 0 * (v.map (fun p => p.1 * stump p.2.1 p.2.2 i)).sum)
    (hd : dist.length = s.nSample) (hp : IsProb dist) :
    ∃ p ∈ v, θ ≤ |((List.range s.nSample).map (fun i => dist.getD i 0 * s.target.getD i 0 * stump p.2.1 p.2.2 i)).sum| := by
  by_contra hcon
  push Not at hcon
  set ed : ℝ × Feature ℝ × ℝ → ℝ := fun p =>
    ((List.range s.nSample).map (fun i => dist.getD i 0 * s.target.getD i 0 * stump p.2.1 p.2.2 i)).sum with hed
  have hex : ((List.range s.nSample).map (fun i => dist.getD i 0 * (s.target.getD i 0 * (v.map (fun p => p.1 * stump p.2.1 p.2.2 i)).sum))).sum
      = (v.map (fun p => p.1 * ed p)).sum := by
    clear v2 v3 hcon
    induction v with
    | nil => simp
    | cons p v ih =>
      simp only [List.map_cons, List.sum_cons, mul_add]
      rw [sum_map_add', ih, hed]
      congr 1
      rw [← sum_map_mul_left']
      congr 1
      apply List.map_congr_left
      intro i _
      ring
  have hlow : θ ≤ ((List.range s.nSample).map (fun i => dist.getD i 0 * (s.target.getD i 0 * (v.map (fun p => p.1 * stump p.2.1 p.2.2 i)).sum))).sum := by
    calc θ = θ * weightOf dist (List.range s.nSample) := by rw [sum_getD_range dist _ hd, hp.2, mul_one]
      _ = ((List.range s.nSample).map (fun i => θ * dist.getD i 0)).sum := by
        unfold weightOf
        rw [sum_map_mul_left']
      _ ≤ _ := by
        apply sum_map_le
        intro i hi
        rw [mul_comm]
        exact mul_le_mul_of_nonneg_left (v3 i (List.mem_range.1 hi)) (getD_nonneg hp.1 i)
  rw [hex] at hlow
  have hM : ∃ M, 0 ≤ M ∧ M < θ ∧ ∀ p ∈ v, |ed p| ≤ M := by
    clear hex hlow v2 v3
    induction v with
    | nil => exact ⟨0, le_rfl, hθ, by simp⟩
    | cons p v ih =>
      obtain ⟨M, m0, m1, m2⟩ := ih fun q hq => hcon q (List.mem_cons_of_mem _ hq)
      refine ⟨max M |ed p|, le_max_of_le_left m0, max_lt m1 (hcon p (by simp)), fun q hq => ?_⟩
      rcases List.mem_cons.mp hq with rfl | hq
      · exact le_max_right _ _
      · exact (m2 q hq).trans (le_max_left _ _)
  obtain ⟨M, m0, m1, m2⟩ := hM
  have hup : (v.map (fun p => p.1 * ed p)).sum ≤ M * (v.map (fun p => |p.1|)).sum := by
    rw [← List.sum_map_mul_left]
    apply List.sum_le_sum
    intro p hp'
    calc p.1 * ed p ≤ |p.1 * ed p| := le_abs_self _
      _ = |p.1| * |ed p| := abs_mul _ _
      _ ≤ |p.1| * M := mul_le_mul_of_nonneg_left (m2 p hp') (abs_nonneg _)
      _ = M * |p.1| := mul_comm _ _
  have : M * (v.map (fun p => |p.1|)).sum ≤ M * 1 := mul_le_mul_of_nonneg_left v2 m0
  linarith

theorem abs_sum_map {A : Type*} (g : A → ℝ) (l : List A) : |(l.map g).sum| ≤ (l.map fun a => |g a|).sum := by
  induction l with
  | nil => simp
  | cons a l ih =>
    rw [List.map_cons, List.sum_cons, List.map_cons, List.sum_cons]
    exact (abs_add_le _ _).trans (by linarith)

/-- Rounding a probability vector. -/
theorem round_dist {d : List ℝ} (hp : IsProb d) (hn : d.length ≤ 10 ^ 5) :
    (d.map rnd = (d.map F64.round).map fin ∧ TreeWeights d.length (d.map F64.round)) ∧
      ∀ z : ℕ → ℝ, (∀ i, |z i| ≤ 1) →
        |((List.range d.length).map fun i => (d.map F64.round).getD i 0 * z i).sum - ((List.range d.length).map fun i => d.getD i 0 * z i).sum| ≤ 1 / 10 ^ 10 := by
  have hle : ∀ x ∈ d, x ≤ 1 := fun x hx => hp.2 ▸ List.single_le_sum hp.1 x hx
  have habs : ∀ x ∈ d, |x| ≤ 1 := fun x hx => by rw [abs_of_nonneg (hp.1 x hx)]; exact hle x hx
  have herr : ∀ z : ℕ → ℝ, (∀ i, |z i| ≤ 1) →
      |((List.range d.length).map fun i => (d.map F64.round).getD i 0 * z i).sum - ((List.range d.length).map fun i => d.getD i 0 * z i).sum| ≤ 1 / 10 ^ 10 := by
    intro z hz
    have h1 : |((List.range d.length).map fun i => (d.map F64.round).getD i 0 * z i).sum - ((List.range d.length).map fun i => d.getD i 0 * z i).sum| ≤
        ((List.range d.length).map fun i => u * d.getD i 0 + eta).sum := by
      rw [sum_sub_map]
      refine (abs_sum_map _ _).trans ?_
      apply List.sum_le_sum
      intro i hi
      have hi' := List.mem_range.mp hi
      rw [← sub_mul, abs_mul]
      have hx : d.getD i 0 = d[i] := by simp [List.getD_eq_getElem?_getD, List.getElem?_eq_getElem hi']
      have hr : (d.map F64.round).getD i 0 = F64.round d[i] := by simp [List.getD_eq_getElem?_getD, List.getElem?_eq_getElem hi']
      rw [hx, hr]
      have e := round_err d[i]
      rw [abs_of_nonneg (hp.1 _ (List.getElem_mem hi'))] at e
      calc |F64.round d[i] - d[i]| * |z i| ≤ |F64.round d[i] - d[i]| * 1 := mul_le_mul_of_nonneg_left (hz i) (abs_nonneg _)
        _ ≤ _ := by linarith
    refine h1.trans ?_
    rw [sum_map_add', sum_map_mul_left', weights_sum rfl, hp.2]
    simp only [List.map_const', List.length_range, List.sum_replicate, nsmul_eq_mul]
    have h2 := u_small
    have h3 := eta_tiny
    have h4 : (d.length : ℝ) ≤ 10 ^ 5 := by exact_mod_cast hn
    have h5 : (d.length : ℝ) * eta ≤ 10 ^ 5 * (1 / 10 ^ 60) := mul_le_mul h4 h3 eta_pos.le (by norm_num)
    norm_num at h2 h5 ⊢
    linarith
  refine ⟨⟨?_, ?_⟩, herr⟩
  · rw [List.map_map]
    exact List.map_congr_left fun x hx => rnd_small ((habs x hx).trans (by norm_num))
  · have hs := herr (fun _ => 1) (fun _ => by simp)
    simp only [mul_one] at hs
    rw [weights_sum (by simp), weights_sum rfl, hp.2] at hs
    have hs' := abs_le.mp hs
    have hnn : ∀ x ∈ d.map F64.round, 0 ≤ x := by
      intro x hx
      obtain ⟨y, hy, rfl⟩ := List.mem_map.mp hx
      exact round_nonneg (hp.1 y hy)
    refine ⟨by simp, fun x hx => ?_, hnn, ?_, by norm_num at hs' ⊢; linarith⟩
    · obtain ⟨y, hy, rfl⟩ := List.mem_map.mp hx
      exact rep_round y
    · by_contra hcon
      push Not at hcon
      have : (d.map F64.round).sum ≤ 0 := by
        have h := List.sum_le_sum (l := d.map F64.round) (f := id) (g := fun _ => (0 : ℝ)) hcon
        simpa [Function.comp_def] using h
      norm_num at hs'
      linarith

theorem stump_abs (f : Feature ℝ) (x : ℝ) (i : ℕ) : |stump f x i| ≤ 1 := by unfold stump; split <;> simp

theorem label_abs {s : Sample ℝ} (hy : ∀ y ∈ s.target, y = 1 ∨ y = -1) (i : ℕ) : |s.target.getD i 0| ≤ 1 := by
  rw [List.getD_eq_getElem?_getD]
  cases h : s.target[i]? with
  | none => simp
  | some y => rcases hy y (List.mem_of_getElem? h) with rfl | rfl <;> simp

theorem testEdge_ge (s : Sample ℝ) (w : List ℝ) (f : Feature ℝ) (x : ℝ) :
    |((List.range s.nSample).map fun i => w.getD i 0 * (s.target.getD i 0 * stump f x i)).sum| ≤ testEdge s w f x := by
  unfold testEdge
  rw [← sum_filter_add (fun i => decide (f.val i < x))]
  refine (abs_add_le _ _).trans ?_
  apply add_le_add
  · rw [← abs_neg]
    apply le_of_eq
    congr 1
    rw [← neg_one_mul, ← List.sum_map_mul_left]
    congr 1
    refine List.map_congr_left fun i hi => ?_
    have := of_decide_eq_true (List.mem_filter.mp hi).2
    simp [stump, this]
  · apply le_of_eq
    congr 2
    have : ((List.range s.nSample).filter fun i => !decide (f.val i < x)) = (List.range s.nSample).filter fun j => decide (x ≤ f.val j) :=
      List.filter_congr fun i _ => by rw [← decide_not]; exact decide_eq_decide.mpr not_lt
    rw [this]
    refine List.map_congr_left fun i hi => ?_
    have := of_decide_eq_true (List.mem_filter.mp hi).2
    simp [stump, not_lt.mpr this]

/-- The weighted error of answers `±1`. -/
theorem error_of_signs {s : Sample ℝ} (hs : SampleOk s) (hy : ∀ y ∈ s.target, y = 1 ∨ y = -1) {d : List ℝ} (hd : d.length = s.nSample) (hp : IsProb d)
    (pred : Sample ℝ × ℕ → ℤ) (z : ℕ → ℝ) (hz : ∀ i < s.nSample, (pred (s, i) : ℝ) = sgn (z i)) :
    weightedError s.rows d pred = (1 - ((List.range s.nSample).map fun i => d.getD i 0 * (s.target.getD i 0 * sgn (z i))).sum) / 2 := by
  have h1 : weightedError s.rows d pred = ((List.range s.nSample).map fun i => d.getD i 0 * ((1 - s.target.getD i 0 * sgn (z i)) / 2)).sum := by
    unfold weightedError Sample.rows
    congr 1
    refine List.ext_getElem (by simp [hd]) fun i h1 h2 => ?_
    have hi : i < s.nSample := by simpa using h2
    have hi2 : i < d.length := by omega
    have hi3 : i < s.target.length := by rw [hs.labels]; exact hi
    simp only [List.getElem_map, List.getElem_zip, List.getElem_range]
    rw [hz i hi]
    have e1 : d.getD i 0 = d[i] := by simp [List.getD_eq_getElem?_getD, List.getElem?_eq_getElem hi2]
    have e2 : s.target.getD i 0 = s.target[i] := by simp [List.getD_eq_getElem?_getD, List.getElem?_eq_getElem hi3]
    rw [e1, e2]
    have hy' := hy _ (List.getElem_mem hi3)
    unfold sgn
    rcases hy' with h | h <;> rw [h] <;> split <;> norm_num
  rw [h1]
  have h2 : ((List.range s.nSample).map fun i => d.getD i 0 * ((1 - s.target.getD i 0 * sgn (z i)) / 2)).sum =
      (((List.range s.nSample).map fun i => d.getD i 0).sum - ((List.range s.nSample).map fun i => d.getD i 0 * (s.target.getD i 0 * sgn (z i))).sum) * (1 / 2) := by
    rw [sum_sub_map, ← List.sum_map_mul_right]
    congr 1
    refine List.map_congr_left fun i _ => ?_
    ring
  rw [h2, weights_sum hd, hp.2]
  ring

/-- C109: GraphSepBoost on decision trees, both in `f64`.  If a vote over tests of the bins separates the labels with margin `θ ≥ 1/100`, the run with the
criterion `edge` ends and, whichever of the possible trees each call of `produce` returns, its hypothesis predicts the label of every
row; every call of the learner returns a tree, and there are at most `2 ln m / (θ² - 4·10⁻⁵) + 1` calls. -/
theorem graphsep_f64_trees (L : Libm) (b : DecisionTreeBuilder ℝ) (hb : FloatTreeData b) (hc : b.criterion = .edge) (hdep : 1 ≤ b.maxDepth) (t : FTree.Tree)
    (ht : FTree.build (10 ^ 5) b = some (.ok t)) {θ : ℝ} (hθ : 1 / 100 ≤ θ) (hv : TestMargin b.sample t.bins θ) (wl : WeakLearner F64 (TreeNode F64))
    (hwl : FTree.IsLearner L t b.sample wl) (s₀ : GraphSepBoost (TreeNode F64)) :
    ∃ n f qs, (GraphSepF.booster b.sample.rows).run wl n s₀ = some (.ok (f, qs)) ∧
      (∀ i < b.sample.nSample, (GraphSepF.predict f (b.sample, i) : ℝ) = b.sample.target.getD i 0) ∧
      (∀ q ∈ qs, ∀ it, FTree.Produce L t b.sample q (some (wl it q))) ∧
      (qs.length : ℝ) ≤ 2 * Real.log b.sample.nSample / (θ ^ 2 - 4 / 10 ^ 5) + 1 := by
  obtain ⟨v, v1, v2, v3⟩ := hv
  have hθ0 : 0 < θ := by linarith
  have hans : ∀ d : List ℝ, d.length = b.sample.nSample → IsProb d → ∀ it, FTree.Produce L t b.sample (d.map rnd) (some (wl it (d.map rnd))) ∧
      weightedError b.sample.rows d (predictF (wl it (d.map rnd))) ≤ 1 / 2 - (θ ^ 2 - 4 / 10 ^ 5) / 2 := by
    intro d hd hp it
    obtain ⟨⟨hr, hw⟩, herr⟩ := round_dist hp (hd ▸ hb.rows_le)
    rw [hd] at hw herr
    set w := d.map F64.round with hwd
    obtain ⟨t', t1, ⟨o, ho⟩, hall⟩ := tree_f64_trains_partial L b hb.sample hb.column hb.rows hb.rows_le hb.columns hb.criterion w hw
    have : t' = t := by
      have := t1 (10 ^ 5) le_rfl
      rw [ht] at this
      cases this
      rfl
    subst this
    obtain ⟨tree, rfl, -⟩ := hall o ho
    rw [hr]
    have hprod := hwl it _ ⟨tree, ho⟩
    refine ⟨hprod, ?_⟩
    obtain ⟨tree', h1, h2⟩ := hall _ hprod
    cases h1
    set T := wl it (w.map fin)
    have hpred : ∀ i < b.sample.nSample, (predictF T (b.sample, i) : ℝ) = sgn (FTree.ans b.sample T i) := by
      intro i hi
      obtain ⟨x, hx, -⟩ := h2 i hi
      have e1 : (conf T ((b.sample, i) : Sample ℝ × ℕ) : F64) = fin x := by
        show (FTree.confidence b.sample i T).getD nan = fin x
        rw [hx]
        rfl
      have e2 : FTree.ans b.sample T i = x := by
        unfold FTree.ans
        rw [hx]
        rfl
      unfold predictF
      rw [e1, e2, sgn]
      by_cases h0 : 0 ≤ x
      · rw [if_pos (show Le (fin 0) (fin x) from h0), if_pos h0]; simp
      · rw [if_neg (show ¬ Le (fin 0) (fin x) from h0), if_neg h0]; simp
    rw [error_of_signs hb.sample hb.labels hd hp _ _ hpred]
    have hz : ∀ i, |b.sample.target.getD i 0 * sgn (FTree.ans b.sample T i)| ≤ 1 := by
      intro i
      rw [abs_mul]
      have : |sgn (FTree.ans b.sample T i)| ≤ 1 := by unfold sgn; split <;> simp
      exact mul_le_one₀ (label_abs hb.labels i) (abs_nonneg _) this
    have hdiff := abs_le.mp (herr _ hz)
    have hsig := tree_f64_signs L t' b.sample hb.sample hb.rows_le hb.labels w hw T hprod
    have hsum := herr (fun _ => 1) (fun _ => by simp)
    simp only [mul_one] at hsum
    rw [weights_sum hw.length, weights_sum hd, hp.2] at hsum
    have hsum' := abs_le.mp hsum
    obtain ⟨p, hpv, hpe⟩ := exists_test hθ0 v2 v3 hd hp
    obtain ⟨hf, bins, hbins, β, hβ, hx⟩ := v1 p hpv
    have hE := tree_f64_edge L b hb hc hdep t' ht w hw (by norm_num at hsum' ⊢; linarith) T hprod p.2.1 hf bins hbins β hβ p.2.2 hx
    have hst := herr (fun i => b.sample.target.getD i 0 * stump p.2.1 p.2.2 i) fun i => by
      rw [abs_mul]
      exact mul_le_one₀ (label_abs hb.labels i) (abs_nonneg _) (stump_abs _ _ _)
    have hge := testEdge_ge b.sample w p.2.1 p.2.2
    simp only [mul_assoc] at hpe
    have htest : θ - 1 / 10 ^ 10 ≤ testEdge b.sample w p.2.1 p.2.2 := by
      have h3 := abs_sub_abs_le_abs_sub ((List.range b.sample.nSample).map fun i => d.getD i 0 * (b.sample.target.getD i 0 * stump p.2.1 p.2.2 i)).sum
        ((List.range b.sample.nSample).map fun i => w.getD i 0 * (b.sample.target.getD i 0 * stump p.2.1 p.2.2 i)).sum
      rw [abs_sub_comm] at h3
      linarith
    have hsq : (θ - 1 / 10 ^ 10) ^ 2 ≤ testEdge b.sample w p.2.1 p.2.2 ^ 2 := pow_le_pow_left₀ (by norm_num at hθ ⊢; linarith) htest 2
    have hθ1 : θ ≤ 1 := by
      refine hpe.trans ((abs_sum_map _ _).trans ?_)
      rw [← hp.2, ← weights_sum hd]
      apply List.sum_le_sum
      intro i _
      rw [abs_mul, abs_of_nonneg (getD_nonneg hp.1 i)]
      refine mul_le_of_le_one_right (getD_nonneg hp.1 i) ?_
      rw [abs_mul]
      exact mul_le_one₀ (label_abs hb.labels i) (abs_nonneg _) (stump_abs _ _ _)
    set E := exactEdge b.sample.rows (w.map fin) T
    have hE1 : θ ^ 2 - 21 / 10 ^ 6 ≤ E * w.sum := by
      norm_num at hsq hE hθ1 ⊢
      nlinarith
    have hθsq : (1 / 100) ^ 2 ≤ θ ^ 2 := pow_le_pow_left₀ (by norm_num) hθ 2
    have hW0 : 0 < w.sum := by norm_num at hsum' ⊢; linarith
    have hE0 : 0 < E := by
      by_contra hneg
      have : E * w.sum ≤ 0 := mul_nonpos_of_nonpos_of_nonneg (not_lt.mp hneg) hW0.le
      norm_num at hθsq hE1
      linarith
    have hE2 : θ ^ 2 - 22 / 10 ^ 6 ≤ E := by
      by_contra hneg
      push Not at hneg
      have hle : E ≤ 1 := by norm_num at hneg ⊢; nlinarith
      have h5 : E * w.sum ≤ E * (1 + 1 / 10 ^ 10) := mul_le_mul_of_nonneg_left (by linarith) hE0.le
      norm_num at hneg h5 hE1
      linarith
    have h6 : θ ^ 2 - 4 / 10 ^ 5 ≤ ((List.range b.sample.nSample).map fun i => d.getD i 0 * (b.sample.target.getD i 0 * sgn (FTree.ans b.sample T i))).sum := by
      have := hdiff.2
      norm_num at hE2 hsig this ⊢
      linarith
    linarith
  have hg : 0 < (θ ^ 2 - 4 / 10 ^ 5) / 2 := by
    have : (1 / 100) ^ 2 ≤ θ ^ 2 := pow_le_pow_left₀ (by norm_num) hθ 2
    norm_num at this ⊢
    linarith
  obtain ⟨n, f, qs, h1, h2, h3, h4⟩ := graphsep_f64 b.sample.rows (by rw [floatRows_length]; exact hb.rows_le) (floatRows_binary hb)
    (floatRows_labels hb.sample hb.labels) s₀ wl hg fun k d hd hp => (hans d (by rw [hd, floatRows_length]) hp k).2
  refine ⟨n, f, qs, h1, rows_errors_zero h2, fun q hq it => ?_, ?_⟩
  · obtain ⟨d, rfl, hd, hp⟩ := h3 q hq
    exact (hans d (by rw [hd, floatRows_length]) hp it).1
  · have hlog : 0 ≤ Real.log (b.sample.nSample : ℝ) := Real.log_nonneg (by exact_mod_cast hb.rows)
    rcases h4 with h4 | h4
    · rw [h4]
      have : 0 ≤ 2 * Real.log (b.sample.nSample : ℝ) / (θ ^ 2 - 4 / 10 ^ 5) := div_nonneg (by linarith) (by linarith)
      simp only [List.length_nil, Nat.cast_zero]
      linarith
    · rw [floatRows_length, Real.log_pow, mul_div_cancel₀ _ (two_ne_zero)] at h4
      exact_mod_cast h4

/-! ## An example -/

/-- On the column `0, 1, 3` with the labels `+1, -1, +1`, which no single test separates, a vote of three tests has margin `1/3`. -/
theorem giniMargin : TestMargin giniSample [("x", giniBins)] (1 / 3) := by
  have hv0 : (Feature.dense ⟨"x", [(0 : ℝ), 1, 3]⟩).val 0 = 0 := rfl
  have hv1 : (Feature.dense ⟨"x", [(0 : ℝ), 1, 3]⟩).val 1 = 1 := rfl
  have hv2 : (Feature.dense ⟨"x", [(0 : ℝ), 1, 3]⟩).val 2 = 3 := rfl
  have hbig := FTree.maxVal_big
  have hbig' : (3 : ℝ) < maxVal := by linarith
  refine ⟨[(-(1 / 3), .dense ⟨"x", [0, 1, 3]⟩, 1), (1 / 3, .dense ⟨"x", [0, 1, 3]⟩, 2), (-(1 / 3), .dense ⟨"x", [0, 1, 3]⟩, maxVal)], ?_, ?_, ?_⟩
  · intro p hp
    simp only [List.mem_cons, List.not_mem_nil, or_false] at hp
    rcases hp with rfl | rfl | rfl <;>
      exact ⟨by simp [giniSample, oneColumn], giniBins, rfl, by simp [giniBins]⟩
  · norm_num
  · intro i hi
    have hi' : i = 0 ∨ i = 1 ∨ i = 2 := by
      have : giniSample.nSample = 3 := rfl
      omega
    rcases hi' with rfl | rfl | rfl
    · show 1 / 3 ≤ (1 : ℝ) * _
      simp only [List.map_cons, List.map_nil, List.sum_cons, List.sum_nil, stump, hv0]
      rw [if_pos (by norm_num), if_pos (by norm_num), if_pos (by linarith)]
      norm_num
    · show 1 / 3 ≤ (-1 : ℝ) * _
      simp only [List.map_cons, List.map_nil, List.sum_cons, List.sum_nil, stump, hv1]
      rw [if_neg (by norm_num), if_pos (by norm_num), if_pos (by linarith)]
      norm_num
    · show 1 / 3 ≤ (1 : ℝ) * _
      simp only [List.map_cons, List.map_nil, List.sum_cons, List.sum_nil, stump, hv2]
      rw [if_neg (by norm_num), if_neg (by norm_num), if_pos hbig']
      norm_num

/-- The hypotheses of `graphsep_f64_trees` are met by this sample: every learner made of trees that training may return makes GraphSepBoost
return a hypothesis without errors, after at most `42` calls. -/
example (L : Libm) : (∃ wl, FTree.IsLearner L ⟨[("x", giniBins)], .edge, 2⟩ giniSample wl) ∧
    ∀ wl, FTree.IsLearner L ⟨[("x", giniBins)], .edge, 2⟩ giniSample wl → ∃ n f qs,
      (GraphSepF.booster giniSample.rows).run wl n GraphSepBoost.init = some (.ok (f, qs)) ∧
      (∀ i < 3, (GraphSepF.predict f (giniSample, i) : ℝ) = giniSample.target.getD i 0) ∧ qs.length ≤ 42 := by
  refine ⟨exists_floatTreeLearner L _ _, fun wl hwl => ?_⟩
  obtain ⟨n, f, qs, h1, h2, -, h4⟩ := graphsep_f64_trees L edgeBuilder edgeBuilder_data rfl (by decide) _ edgeBuild (by norm_num) giniMargin wl hwl
    GraphSepBoost.init
  refine ⟨n, f, qs, h1, h2, ?_⟩
  have hl : Real.log (3 : ℝ) ≤ 2 := by
    have := Real.log_le_sub_one_of_pos (show (0 : ℝ) < 3 by norm_num)
    linarith
  have h5 : (qs.length : ℝ) ≤ 2 * Real.log 3 / ((1 / 3) ^ 2 - 4 / 10 ^ 5) + 1 := by exact_mod_cast h4
  have h6 : 2 * Real.log 3 / ((1 / 3) ^ 2 - 4 / 10 ^ 5) ≤ 41 := by
    rw [div_le_iff₀ (by norm_num)]
    norm_num
    linarith
  have : (qs.length : ℝ) ≤ 42 := by linarith
  exact_mod_cast this

end Miniboosts.Props
