import Verif.Lemmas.FloatStump
import Verif.Props.FloatTreeBoost
import Verif.Spec.FloatEdge

/-! # Decision trees trained in `f64` are weak learners (C103)

A tree answers every row with the weighted mean label of the rows in its leaf, up to `10⁻⁸`; with the criterion `edge` its edge is at least the
square of the edge of every test `value < boundary` on the bins (and of the constant answer), up to `2·10⁻⁵`.  Every order of the hash maps and
every division of the parallel sums is covered. -/

namespace Miniboosts.Props

open Miniboosts Spec F64

/-! ## Rows of weight zero -/

theorem sum_positive {w : ℕ → ℝ} (l : List ℕ) (hw : ∀ i ∈ l, 0 ≤ w i) (g : ℕ → ℝ) :
    ((l.filter fun i => decide (0 < w i)).map fun i => w i * g i).sum = (l.map fun i => w i * g i).sum := by
  induction l with
  | nil => rfl
  | cons i l ih =>
    have h := ih fun j hj => hw j (List.mem_cons_of_mem _ hj)
    rw [List.filter_cons]
    by_cases hi : 0 < w i
    · simp only [hi, decide_true, if_true, List.map_cons, List.sum_cons, h]
    · have h0 : w i = 0 := le_antisymm (not_lt.mp hi) (hw i (by simp))
      rw [if_neg (by simpa using hi), List.map_cons, List.sum_cons, h, h0, zero_mul, zero_add]

theorem sum_positive_filter {w : ℕ → ℝ} (l : List ℕ) (hw : ∀ i ∈ l, 0 ≤ w i) (p : ℕ → Bool) (g : ℕ → ℝ) :
    (((l.filter fun i => decide (0 < w i)).filter p).map fun i => w i * g i).sum = ((l.filter p).map fun i => w i * g i).sum := by
  rw [List.filter_comm]
  exact sum_positive _ (fun i hi => hw i (List.mem_filter.mp hi).1) g

theorem sum_positive_weight {w : ℕ → ℝ} (l : List ℕ) (hw : ∀ i ∈ l, 0 ≤ w i) (p : ℕ → Bool) :
    (((l.filter fun i => decide (0 < w i)).filter p).map w).sum = ((l.filter p).map w).sum := by
  have := sum_positive_filter l hw p fun _ => 1
  simpa using this

theorem weights_nonneg {n : ℕ} {w : List ℝ} (hw : TreeWeights n w) : ∀ i ∈ List.range n, 0 ≤ w.getD i 0 := by
  intro i hi
  have hi' : i < w.length := by rw [hw.length]; exact List.mem_range.mp hi
  rw [List.getD_eq_getElem?_getD, List.getElem?_eq_getElem hi']
  exact hw.nonneg _ (List.getElem_mem hi')

theorem weights_sum {n : ℕ} {w : List ℝ} (hw : w.length = n) : ((List.range n).map fun i => w.getD i 0).sum = w.sum := by
  congr 1
  refine List.ext_getElem (by simp [hw]) fun i h1 h2 => ?_
  simp [List.getD_eq_getElem?_getD, List.getElem?_eq_getElem h2]

/-- What a call of `produce` that returns a tree has computed. -/
theorem produce_rel {L : Libm} {t : FTree.Tree} {s : Sample ℝ} {w : List ℝ} (hw : TreeWeights s.nSample w) (hn : s.nSample ≤ 10 ^ 5) {tree : TreeNode F64}
    (hp : FTree.Produce L t s (w.map fin) (some tree)) :
    ∃ idx node, idx = (List.range s.nSample).filter (fun i => decide (0 < w.getD i 0)) ∧ idx ≠ [] ∧ FTree.Node s (w.map fin) (fun i => w.getD i 0) idx ∧
      FTree.FullTree L t s (w.map fin) t.maxDepth idx (some node) ∧ tree = FTree.ofTrain (FTree.removeRedundant node) := by
  obtain ⟨idx, i1, i2, i3⟩ := node_of_weights hw hn
  have h1 := FTree.positiveRows_f64 (dist := w.map fin) (w := fun i => w.getD i 0) (List.range s.nSample) fun i hi => by
    have hi' : i < w.length := by rw [hw.length]; exact List.mem_range.mp hi
    simp [List.getElem?_eq_getElem hi', List.getD_eq_getElem?_getD]
  rw [i1] at h1
  unfold FTree.Produce at hp
  rw [i1] at hp
  simp only [i2, if_false] at hp
  obtain ⟨x, hx, ho⟩ := hp
  cases x with
  | none => cases ho
  | some node => exact ⟨idx, node, Option.some.inj h1, i2, i3, hx, Option.some.inj ho⟩

theorem exactEdge_rows {s : Sample ℝ} {w : List ℝ} (hl : w.length = s.nSample) (tree : TreeNode F64) :
    exactEdge s.rows (w.map fin) tree = FTree.edgeOn s (fun i => w.getD i 0) tree (List.range s.nSample) := by
  unfold exactEdge FTree.edgeOn Sample.rows
  congr 1
  refine List.ext_getElem (by simp [hl]) fun i h1 h2 => ?_
  have hi : i < w.length := by simp at h2; omega
  simp [List.getD_eq_getElem?_getD, List.getElem?_eq_getElem hi]
  show _ = w[i] * (_ * FTree.ans s tree i)
  rfl

theorem tree_binary {s : Sample ℝ} (hs : SampleOk s) (hy : ∀ y ∈ s.target, y = 1 ∨ y = -1) {idx : List ℕ} (hi : ∀ i ∈ idx, i < s.nSample) : FTree.Binary s idx := by
  intro i h
  have h' : i < s.target.length := by rw [hs.labels]; exact hi i h
  rw [List.getD_eq_getElem?_getD, List.getElem?_eq_getElem h']
  exact hy _ (List.getElem_mem h')

/-- C103, the answers: whatever the criterion, the bins and the depth, a tree that `produce` returns answers every row that has a positive weight with
the weighted mean label of the rows that reach the same leaf, up to `10⁻⁸`, and its edge is at least that of the mean label of all rows. -/
theorem tree_f64_answers_means (L : Libm) (t : FTree.Tree) (s : Sample ℝ) (hs : SampleOk s) (hn : s.nSample ≤ 10 ^ 5) (hy : ∀ y ∈ s.target, y = 1 ∨ y = -1)
    (w : List ℝ) (hw : TreeWeights s.nSample w) (tree : TreeNode F64) (hp : FTree.Produce L t s (w.map fin) (some tree)) :
    (∀ i < s.nSample, 0 < w.getD i 0 → ∃ x : ℝ, FTree.confidence s i tree = some (fin x) ∧ |x| ≤ 1 ∧ |x - meanLabel s w (leafMates s tree i)| ≤ 1 / 10 ^ 8) ∧
      (meanLabel s w (List.range s.nSample)) ^ 2 * w.sum - 1 / 10 ^ 8 * w.sum ≤ exactEdge s.rows (w.map fin) tree := by
  classical
  obtain ⟨idx, node, hidx, i2, i3, hf, rfl⟩ := produce_rel hw hn hp
  have hb := tree_binary hs hy i3.row
  have hrel := FTree.ofTrain_rel _ _ (FTree.removeRedundant_rel _ _ (FTree.fullTree_rel L hs _ idx i3 i2 hb node hf))
  have h0 := weights_nonneg hw
  refine ⟨fun i hi hwi => ?_, ?_⟩
  · obtain ⟨x, h1, h2, h3⟩ := FTree.treeRel_mates hs _ idx hrel i3.row i (by rw [hidx]; exact List.mem_filter.mpr ⟨List.mem_range.mpr hi, by simpa using hwi⟩)
    refine ⟨x, h1, h2, ?_⟩
    unfold meanLabel leafMates
    unfold FTree.signedWeight at h3
    rw [hidx, sum_positive_filter _ h0, sum_positive_weight _ h0] at h3
    exact h3
  · have h := FTree.treeRel_edge _ idx hrel i3 hb
    have e1 : (idx.map fun i => w.getD i 0).sum = w.sum := by
      rw [hidx, ← weights_sum hw.length]
      have := sum_positive (w := fun i => w.getD i 0) _ h0 fun _ => 1
      simpa using this
    have e2 : FTree.signedWeight s (fun i => w.getD i 0) idx = ((List.range s.nSample).map fun j => w.getD j 0 * s.target.getD j 0).sum := by
      unfold FTree.signedWeight
      rw [hidx, sum_positive _ h0]
    have e3 : FTree.edgeOn s (fun i => w.getD i 0) (FTree.ofTrain (FTree.removeRedundant node)) idx = exactEdge s.rows (w.map fin) (FTree.ofTrain (FTree.removeRedundant node)) := by
      rw [exactEdge_rows hw.length]
      unfold FTree.edgeOn
      rw [hidx, sum_positive _ h0]
    rw [e1, e2, e3] at h
    have hpos : 0 < w.sum := e1 ▸ i3.wpos i2
    refine le_trans (le_of_eq ?_) h
    unfold meanLabel
    rw [weights_sum hw.length, div_pow]
    field_simp

/-! ## The criterion `edge` -/

theorem tiles_start {a z : ℝ} : ∀ {rb : List (Bin ℝ)}, Tiles a rb z → ∀ b ∈ rb, b.start = a ∨ ∃ c ∈ rb, b.start = c.stop := by
  intro rb
  induction rb generalizing a with
  | nil => simp
  | cons c rb ih =>
    rintro ⟨h1, h2, h3⟩ b hb
    rcases List.mem_cons.mp hb with rfl | hb
    · exact .inl h1
    · rcases ih h3 b hb with h | ⟨d, hd, h⟩
      · exact .inr ⟨c, by simp, h⟩
      · exact .inr ⟨d, List.mem_cons_of_mem _ hd, h⟩

theorem build_fine {b : DecisionTreeBuilder ℝ} (hb : FloatTreeData b) {t : FTree.Tree} (ht : FTree.build (10 ^ 5) b = some (.ok t)) :
    FTree.FineTree t b.sample ∧ t.criterion = b.criterion ∧ t.maxDepth = b.maxDepth := by
  obtain ⟨t', t1, t2, t3, t4⟩ := tree_build_f64_partial b hb.sample hb.rows (10 ^ 5) hb.columns
  have : t' = t := by
    have := t1 (10 ^ 5) le_rfl
    rw [ht] at this
    cases this
    rfl
  subst this
  refine ⟨⟨⟨hb.sample, hb.column, fun f hf i hi => ?_, fun f hf => ?_⟩, fun f hf rb hrb => ?_⟩, t2, t3⟩
  · obtain ⟨n, lo, hi', M, h1, h2, h3, h4, h5, h6, h7, h8⟩ := hb.columns f hf
    have hM : M ≤ 2 ^ 21 := by
      have : (0 : ℝ) ≤ n := Nat.cast_nonneg n
      nlinarith
    exact big_lt ((h6 _ ⟨i, hi, Feature.index_val (hb.sample.columns f hf) hi⟩).trans (hM.trans (by norm_num)))
  · obtain ⟨rb, r1, r2, r3, -⟩ := t4 f hf
    obtain ⟨n, lo, hi', M, h1, h2, h3, h4⟩ := hb.columns f hf
    rw [h1] at r2
    exact ⟨rb, r1, by rw [Option.some.inj r2]; exact h3, r3⟩
  · obtain ⟨rb', r1, r2, r3, r4⟩ := t4 f hf
    rw [r1] at hrb
    have e : rb' = rb := FTree.toF_inj (Option.some.inj hrb)
    subst e
    intro β hβ
    refine ⟨?_, r4 β hβ⟩
    rcases tiles_start r3 β hβ with h | ⟨c, hc, h⟩
    · exact .inl h
    · rcases r4 c hc with h' | h'
      · exfalso
        obtain ⟨q1, q2, q3⟩ := tiles_mem r3 β hβ
        rw [h, h'] at q2
        linarith
      · exact .inr (h ▸ h')

/-- C103: with the criterion `edge` and a depth of at least one, a tree that `produce` returns has an edge that is, up to `2·10⁻⁵`, at least the square of the
edge of every rule of thumb `value of the column < boundary of a bin` (for weights that sum up to at least one half; with a sum of one the
product is the edge itself). -/
theorem tree_f64_edge (L : Libm) (b : DecisionTreeBuilder ℝ) (hb : FloatTreeData b) (hc : b.criterion = .edge) (hd : 1 ≤ b.maxDepth) (t : FTree.Tree)
    (ht : FTree.build (10 ^ 5) b = some (.ok t)) (w : List ℝ) (hw : TreeWeights b.sample.nSample w) (hW : 1 / 2 ≤ w.sum) (tree : TreeNode F64)
    (hp : FTree.Produce L t b.sample (w.map fin) (some tree)) (f : Feature ℝ) (hf : f ∈ b.sample.features) (bins : List (Bin F64))
    (hbins : HMap.get? t.bins f.name = some bins) (β : Bin F64) (hβ : β ∈ bins) (x : ℝ) (hx : β.stop = fin x) :
    testEdge b.sample w f x ^ 2 ≤ exactEdge b.sample.rows (w.map fin) tree * w.sum + 2 / 10 ^ 5 := by
  classical
  obtain ⟨hfine, tc, td⟩ := build_fine hb ht
  obtain ⟨idx, node, hidx, i2, i3, hfull, rfl⟩ := produce_rel hw hb.rows_le hp
  have hbin := tree_binary hb.sample hb.labels i3.row
  have h0 := weights_nonneg hw
  have e1 : (idx.map fun i => w.getD i 0).sum = w.sum := by
    rw [hidx, ← weights_sum hw.length]
    have := sum_positive (w := fun i => w.getD i 0) _ h0 fun _ => 1
    simpa using this
  have e3 : FTree.edgeOn b.sample (fun i => w.getD i 0) (FTree.ofTrain (FTree.removeRedundant node)) idx =
      exactEdge b.sample.rows (w.map fin) (FTree.ofTrain (FTree.removeRedundant node)) := by
    rw [exactEdge_rows hw.length]
    unfold FTree.edgeOn
    rw [hidx, sum_positive _ h0]
  obtain ⟨d, hdep⟩ : ∃ d, t.maxDepth = d + 1 := ⟨t.maxDepth - 1, by omega⟩
  rw [hdep] at hfull
  obtain ⟨D, hD1, hD2, hD3⟩ := FTree.fullTree_edge L (tc.trans hc) hfine i3 i2 hbin (e1 ▸ hW) hfull
  rw [e1, e3] at hD3
  obtain ⟨rb, rb1, rb2, rb3⟩ := hfine.ok.bins f hf
  rw [hbins] at rb1
  obtain rfl := Option.some.inj rb1
  obtain ⟨γ, hγ, rfl⟩ := List.mem_map.mp hβ
  have hx' : γ.stop = x := by
    have : fin γ.stop = fin x := hx
    simpa using this
  have hdiff := hD2 f hf rb hbins γ hγ
  rw [hx'] at hdiff
  have hW0 : 0 < w.sum := by linarith
  rw [e1, div_le_iff₀ hW0] at hD1
  unfold FTree.diff at hdiff
  rw [e1, abs_div, abs_of_pos hW0, div_le_iff₀ hW0] at hdiff
  have hsum := FTree.signed_filter b.sample (fun i => w.getD i 0) idx fun i => decide (f.val i < x)
  have hst : testEdge b.sample w f x = |FTree.signedWeight b.sample (fun i => w.getD i 0) (idx.filter fun i => decide (f.val i < x))| +
      |FTree.signedWeight b.sample (fun i => w.getD i 0) (idx.filter fun i => !decide (f.val i < x))| := by
    unfold testEdge FTree.signedWeight
    rw [hidx, sum_positive_filter _ h0, sum_positive_filter _ h0]
    congr 3
    refine congrArg _ (List.filter_congr fun i _ => ?_)
    rw [← decide_not]
    exact decide_eq_decide.mpr not_lt.symm
  have hle : testEdge b.sample w f x ≤ D * w.sum := by
    rw [hst, FTree.sides_max, hsum, max_le_iff]
    refine ⟨hD1, ?_⟩
    unfold FTree.below at hdiff
    rw [← hsum] at hdiff
    refine le_trans (le_of_eq ?_) hdiff
    congr 1
    ring
  have hst0 : 0 ≤ testEdge b.sample w f x := by rw [hst]; positivity
  have hsq : testEdge b.sample w f x ^ 2 ≤ (D * w.sum) ^ 2 := by gcongr
  have h1 : (D * w.sum) ^ 2 = D ^ 2 * w.sum * w.sum := by ring
  have h2 : D ^ 2 * w.sum * w.sum ≤ (exactEdge b.sample.rows (w.map fin) (FTree.ofTrain (FTree.removeRedundant node)) + 1 / 10 ^ 5) * w.sum := by
    gcongr
    linarith
  have h3 := hw.sum
  have h4 : (1 / 10 ^ 5 : ℝ) * w.sum ≤ 1 / 10 ^ 5 * (3 / 2) := by gcongr
  norm_num at h4 ⊢
  linarith

/-! ## Boosting these trees -/

/-- C103 and C95 together: if in every round that a run may reach some test on the bins has an edge of at least `γ`, and no tree's edge exceeds `0.998`, then
AdaBoost on trees with the criterion `edge`, both in `f64`, returns a vote that is wrong on at most a fraction
`1.001 (√(1 - (γ² - 3·10⁻⁵)²) + 10⁻⁵)^T` of the rows. -/
theorem adaboost_f64_edge_trees (L : Libm) (b : DecisionTreeBuilder ℝ) (hb : FloatTreeData b) (hc : b.criterion = .edge) (hd : 1 ≤ b.maxDepth) (t : FTree.Tree)
    (ht : FTree.build (10 ^ 5) b = some (.ok t)) (wl : WeakLearner F64 (TreeNode F64)) (hwl : FTree.IsLearner L t b.sample wl) (γ : ℝ)
    (hγ0 : 0 ≤ γ) (hγ : 1 / 1000 ≤ γ ^ 2 - 3 / 10 ^ 5) (hγ2 : γ ^ 2 - 3 / 10 ^ 5 ≤ 998 / 1000) (s : AdaBoostF (TreeNode F64))
    (htest : ∀ it st, FloatReach L b.sample.rows wl s it st → it ≤ st.maxIter → ∃ f ∈ b.sample.features, ∃ bins, HMap.get? t.bins f.name = some bins ∧
      ∃ β ∈ bins, ∃ x, β.stop = fin x ∧ γ ≤ testEdge b.sample (st.dist.map F64.val) f x)
    (hup : ∀ it st, FloatReach L b.sample.rows wl s it st → it ≤ st.maxIter → exactEdge b.sample.rows st.dist (wl it st.dist) ≤ 998 / 1000)
    (hT1 : 1 ≤ floatLimit b.sample.rows s) (hT : floatLimit b.sample.rows s ≤ 900) {r} (h : (AdaBoostF.booster L b.sample.rows).Runs wl s r) :
    ∃ f qs, r = .ok (f, qs) ∧ qs.length = floatLimit b.sample.rows s ∧
      (floatMistakes b.sample.rows f : ℝ) ≤
        1001 / 1000 * (Real.sqrt (1 - (γ ^ 2 - 3 / 10 ^ 5) ^ 2) + 1 / 10 ^ 5) ^ floatLimit b.sample.rows s * b.sample.nSample := by
  have hlow : ∀ it st, FloatReach L b.sample.rows wl s it st → it ≤ st.maxIter → SoundWeights b.sample.nSample st.dist →
      γ ^ 2 - 3 / 10 ^ 5 ≤ exactEdge b.sample.rows st.dist (wl it st.dist) := by
    intro it st hr hi hsd
    obtain ⟨hp, -⟩ := floatTree_conf hb ht hwl hsd it
    obtain ⟨f, hf, bins, hbins, β, hβ, x, hx, hg⟩ := htest it st hr hi
    have hu := hup it st hr hi
    obtain ⟨xs, hxs, hl, hpos, hsum, hD⟩ := hsd
    obtain ⟨w, hwe, hw⟩ := treeWeights_of_sound hb.rows ⟨xs, hxs, hl, hpos, hsum, hD⟩
    have e : w = xs := List.map_injective_iff.mpr (fun _ _ h => by cases h; rfl) (hwe.symm.trans hxs)
    subst e
    have hval : st.dist.map F64.val = w := by
      rw [hxs, List.map_map]
      exact (List.map_congr_left fun _ _ => rfl).trans (List.map_id _)
    rw [hval] at hg
    have hsum' := abs_le.mp hsum
    rw [hxs] at hp hu ⊢
    have hE := tree_f64_edge L b hb hc hd t ht w hw (by linarith) _ hp f hf bins hbins β hβ x hx
    have h1 : γ ^ 2 ≤ testEdge b.sample w f x ^ 2 := by gcongr
    set E := exactEdge b.sample.rows (w.map fin) (wl it (w.map fin))
    norm_num at hγ hsum' hE ⊢
    nlinarith
  have hfair : FairRun L b.sample.rows wl s (γ ^ 2 - 3 / 10 ^ 5) (998 / 1000) :=
    ⟨fun it st _ _ hd => (floatTree_conf hb ht hwl (floatRows_length b.sample ▸ hd) it).2,
      fun it st hr hi hd => ⟨hlow it st hr hi (floatRows_length b.sample ▸ hd), hup it st hr hi⟩⟩
  obtain ⟨f, qs, h1, h2, -, h4⟩ := adaboost_float_training_error L b.sample.rows (floatRows_labels hb.sample hb.labels) (floatRows_ne hb)
    (by rw [floatRows_length]; exact hb.rows_le) (floatRows_binary hb) wl _ hγ hγ2 s hfair hT1 hT h
  rw [floatRows_length] at h4
  exact ⟨f, qs, h1, h2, h4⟩

/-! ## Examples -/

/-- The learner for the sample of C94 with the criterion `edge`. -/
noncomputable def edgeBuilder : DecisionTreeBuilder ℝ := (DecisionTreeBuilder.new giniSample).setCriterion .edge

theorem edgeBuilder_data : FloatTreeData edgeBuilder where
  sample := oneColumn_ok rfl
  column := by simp [edgeBuilder, DecisionTreeBuilder.setCriterion, DecisionTreeBuilder.new, giniSample, oneColumn]
  rows := by simp [edgeBuilder, DecisionTreeBuilder.setCriterion, DecisionTreeBuilder.new, giniSample, oneColumn]
  rows_le := by simp [edgeBuilder, DecisionTreeBuilder.setCriterion, DecisionTreeBuilder.new, giniSample, oneColumn]
  columns := giniSample_columns _
  criterion := by simp [edgeBuilder, DecisionTreeBuilder.setCriterion]
  labels := by
    intro y hy
    have hy' : y ∈ [(1 : ℝ), -1, 1] := hy
    simp only [List.mem_cons, List.not_mem_nil, or_false] at hy'
    tauto
  binary := by
    have h1 : ⌊(1 : ℝ)⌋ = 1 := by norm_num
    have h2 : ⌈(-1 : ℝ)⌉ = -1 := by norm_num
    have h3 : ¬ (0 : ℝ) ≤ -1 := by norm_num
    simp [Sample.isValidBinaryInstance, isValidBinary, edgeBuilder, DecisionTreeBuilder.setCriterion, DecisionTreeBuilder.new, giniSample, oneColumn, trunc, asI32, h1, h2, h3]

theorem edgeBuild : FTree.build (10 ^ 5) edgeBuilder = some (.ok ⟨[("x", giniBins)], .edge, 2⟩) := by
  unfold FTree.build
  have h : edgeBuilder.nBins = [("x", 3)] := giniSample_bins
  have hf' : edgeBuilder.sample.features = [.dense ⟨"x", [0, 1, 3]⟩] := rfl
  rw [h, hf']
  simp only [FTree.cutAll, Feature.name, HMap.get?, if_true, giniCut (show 3 ≤ 10 ^ 5 by norm_num)]
  rfl

/-- On the column `0, 1, 3` with labels `+1, -1, +1` and the weights `1/2, 1/2, 2⁻⁶⁰` every tree that training may return has an edge of at least `0.999`. -/
example (L : Libm) : (∃ tree, FTree.Produce L ⟨[("x", giniBins)], .edge, 2⟩ giniSample (giniWeights.map fin) (some tree)) ∧
    ∀ tree, FTree.Produce L ⟨[("x", giniBins)], .edge, 2⟩ giniSample (giniWeights.map fin) (some tree) → 999 / 1000 ≤ exactEdge giniSample.rows (giniWeights.map fin) tree := by
  constructor
  · obtain ⟨t, t1, ⟨o, ho⟩, hall⟩ := tree_f64_trains_partial L edgeBuilder edgeBuilder_data.sample edgeBuilder_data.column edgeBuilder_data.rows edgeBuilder_data.rows_le
      edgeBuilder_data.columns edgeBuilder_data.criterion giniWeights giniWeights_ok
    have := t1 (10 ^ 5) le_rfl
    rw [edgeBuild] at this
    cases this
    obtain ⟨tree, rfl, -⟩ := hall o ho
    exact ⟨tree, ho⟩
  · intro tree hp
    have hsum : giniWeights.sum = 1 + 1 / 2 ^ 60 := by norm_num [giniWeights]
    have h := tree_f64_edge L edgeBuilder edgeBuilder_data rfl (by decide) _ edgeBuild giniWeights giniWeights_ok (by rw [hsum]; norm_num) tree hp
      (.dense ⟨"x", [0, 1, 3]⟩) (by simp [edgeBuilder, DecisionTreeBuilder.setCriterion, DecisionTreeBuilder.new, giniSample, oneColumn]) giniBins rfl
      ⟨fin (-maxVal), fin 1⟩ (by simp [giniBins]) 1 rfl
    have hv0 : (Feature.dense ⟨"x", [(0 : ℝ), 1, 3]⟩).val 0 = 0 := rfl
    have hv1 : (Feature.dense ⟨"x", [(0 : ℝ), 1, 3]⟩).val 1 = 1 := rfl
    have hv2 : (Feature.dense ⟨"x", [(0 : ℝ), 1, 3]⟩).val 2 = 3 := rfl
    have ht : testEdge giniSample giniWeights (.dense ⟨"x", [0, 1, 3]⟩) 1 = 1 - 1 / 2 ^ 60 := by
      have hr : List.range giniSample.nSample = [0, 1, 2] := rfl
      have htg : giniSample.target = [1, -1, 1] := rfl
      unfold testEdge
      rw [hr, htg]
      simp only [List.filter_cons, List.filter_nil, hv0, hv1, hv2, giniWeights]
      norm_num
    change testEdge giniSample giniWeights (.dense ⟨"x", [0, 1, 3]⟩) 1 ^ 2 ≤ exactEdge giniSample.rows (giniWeights.map fin) tree * giniWeights.sum + _ at h
    rw [ht, hsum] at h
    norm_num at h ⊢
    linarith

/-- The learner for three rows that no test separates, with the criterion `edge`. -/
noncomputable def sameEdgeBuilder : DecisionTreeBuilder ℝ := sameBuilder.setCriterion .edge

theorem sameEdgeBuilder_data : FloatTreeData sameEdgeBuilder :=
  ⟨sameBuilder_data.sample, sameBuilder_data.column, sameBuilder_data.rows, sameBuilder_data.rows_le, sameBuilder_data.columns, by simp [sameEdgeBuilder, DecisionTreeBuilder.setCriterion],
    sameBuilder_data.labels, sameBuilder_data.binary⟩

/-- The hypotheses of `adaboost_f64_edge_trees` are met by one round on these rows, where the best answer is the constant. -/
example (L : Libm) : ∃ (t : FTree.Tree) (wl : WeakLearner F64 (TreeNode F64)), FTree.build (10 ^ 5) sameEdgeBuilder = some (.ok t) ∧ FTree.IsLearner L t sameSample wl ∧
    (∃ r, (AdaBoostF.booster L sameSample.rows).Runs wl sameBooster r) ∧
    ∀ r, (AdaBoostF.booster L sameSample.rows).Runs wl sameBooster r → ∃ f qs, r = .ok (f, qs) ∧ qs.length = 1 := by
  obtain ⟨t, ht, ⟨wl, hwl⟩, -⟩ := adaboost_f64_trees L sameEdgeBuilder sameEdgeBuilder_data
  refine ⟨t, wl, ht, hwl, exists_float_run L _ wl _, fun r hr => ?_⟩
  have hedges : TreeEdges L sameSample wl sameBooster (1 / 10) (998 / 1000) := sameEdges_of fun _ hd _ => (floatTree_conf sameEdgeBuilder_data ht hwl hd 1).1
  have htest : ∀ it st, FloatReach L sameEdgeBuilder.sample.rows wl sameBooster it st → it ≤ st.maxIter → ∃ f ∈ sameEdgeBuilder.sample.features, ∃ bins,
      HMap.get? t.bins f.name = some bins ∧ ∃ β ∈ bins, ∃ x, β.stop = fin x ∧ 3 / 10 ≤ testEdge sameEdgeBuilder.sample (st.dist.map F64.val) f x := by
    intro it st hr hi
    obtain ⟨h1, h2, h3⟩ := reach_first hr
    have hit : it = 1 := by
      have : floatLimit sameSample.rows sameBooster = 1 := rfl
      have h3' : st.maxIter = floatLimit sameSample.rows sameBooster := h3
      omega
    subst hit
    obtain ⟨x, hd, -, hx⟩ := sameDist (h2 rfl)
    have hx' := abs_le.mp hx
    have hf : Feature.dense ⟨"x", [(0 : ℝ), 0, 0]⟩ ∈ sameEdgeBuilder.sample.features := by
      simp [sameEdgeBuilder, sameBuilder, DecisionTreeBuilder.setCriterion, DecisionTreeBuilder.new, sameSample, oneColumn]
    obtain ⟨t', t1, -, -, t4⟩ := tree_build_f64_partial sameEdgeBuilder sameEdgeBuilder_data.sample sameEdgeBuilder_data.rows (10 ^ 5) sameEdgeBuilder_data.columns
    have : t' = t := by
      have := t1 (10 ^ 5) le_rfl
      rw [ht] at this
      cases this
      rfl
    subst this
    obtain ⟨rb, r1, r2, r3, -⟩ := t4 _ hf
    have hlen : rb.length = 1 := by
      have hb : sameEdgeBuilder.nBins = [("x", 1)] := sameSample_bins
      rw [hb] at r2
      exact Option.some.inj r2
    obtain ⟨β, rfl⟩ := List.length_eq_one_iff.mp hlen
    have hstop : β.stop = maxVal := r3.2.2
    refine ⟨_, hf, _, r1, _, List.mem_map_of_mem (List.mem_singleton_self β), maxVal, congrArg fin hstop, ?_⟩
    have hbig := FTree.maxVal_big
    have hr : List.range sameEdgeBuilder.sample.nSample = [0, 1, 2] := rfl
    have htg : sameEdgeBuilder.sample.target = [1, 1, -1] := rfl
    have hv : ∀ i ∈ [0, 1, 2], (Feature.dense ⟨"x", [(0 : ℝ), 0, 0]⟩).val i = 0 := by
      intro i hi
      simp only [List.mem_cons, List.not_mem_nil, or_false] at hi
      rcases hi with rfl | rfl | rfl <;> rfl
    have h0 : (0 : ℝ) < maxVal := by linarith
    have h0' : ¬ maxVal ≤ (0 : ℝ) := not_le.mpr h0
    unfold testEdge
    rw [hd, hr, htg]
    simp only [List.filter_cons, List.filter_nil, hv 0 (by simp), hv 1 (by simp), hv 2 (by simp), h0, h0', decide_true, decide_false, if_true, Bool.false_eq_true, if_false,
      List.map_cons, List.map_nil, List.sum_cons, List.sum_nil, F64.val, List.getD_cons_zero, List.getD_cons_succ]
    rw [abs_of_nonneg (by linarith)]
    norm_num at hx' ⊢
    linarith
  obtain ⟨f, qs, h1, h2, -⟩ := adaboost_f64_edge_trees L sameEdgeBuilder sameEdgeBuilder_data rfl (by decide) t ht wl hwl (3 / 10) (by norm_num) (by norm_num) (by norm_num) sameBooster
    htest (fun it st hr hi => (hedges it st hr hi).2) le_rfl (by show 1 ≤ 900; norm_num) hr
  exact ⟨f, qs, h1, h2⟩

end Miniboosts.Props
