import Verif.Model.FloatTreeBoost
import Verif.Props.FloatTree
import Verif.Props.Rounding

/-! # AdaBoost on decision trees in `f64` (C95) -/

namespace Miniboosts.Props

open Miniboosts Spec F64

/-- A learner made of the trees that `produce` may return exists. -/
theorem exists_floatTreeLearner (L : Libm) (t : FTree.Tree) (s : Sample ℝ) : ∃ wl, FTree.IsLearner L t s wl := by
  classical
  refine ⟨fun _ d => if h : ∃ tree, FTree.Produce L t s d (some tree) then h.choose else .leaf nan, fun it d h => ?_⟩
  simp only [dif_pos h]
  exact h.choose_spec

theorem floatRows_length (s : Sample ℝ) : s.rows.length = s.nSample := by simp [Sample.rows]

theorem floatRows_snd {s : Sample ℝ} (hs : SampleOk s) : s.rows.map Prod.snd = s.target := by
  unfold Sample.rows
  rw [List.map_map]
  apply List.ext_getElem (by simp [hs.labels])
  intro i h1 h2
  simp [List.getD_eq_getElem?_getD, List.getElem?_eq_getElem h2]

theorem floatRows_labels {s : Sample ℝ} (hs : SampleOk s) (hy : ∀ y ∈ s.target, y = 1 ∨ y = -1) : ∀ e ∈ s.rows, e.2 = 1 ∨ e.2 = -1 := by
  intro e he
  exact hy _ (floatRows_snd hs ▸ List.mem_map_of_mem he)

theorem treeWeights_of_sound {n : Nat} (hn : 0 < n) {d : List F64} (h : SoundWeights n d) : ∃ w : List ℝ, d = w.map fin ∧ TreeWeights n w := by
  obtain ⟨xs, rfl, hl, hx, hs, hD⟩ := h
  have hx0 : ∀ x ∈ xs, 0 < x := fun x hm => lt_of_lt_of_le (by positivity) (hx x hm)
  refine ⟨xs, rfl, hl, hD, fun x hm => (hx0 x hm).le, ?_, ?_⟩
  · cases xs with
    | nil => simp at hl; omega
    | cons x xs => exact ⟨x, by simp, hx0 x (by simp)⟩
  · have := abs_le.mp hs
    linarith

/-- What is asked of the data and of the learner's options: a well-formed sample with at least one column, one to `10⁵` rows, labels `±1`, columns of
moderate size (C93) and a criterion other than Gini (C94). -/
structure FloatTreeData (b : DecisionTreeBuilder ℝ) : Prop where
  sample : SampleOk b.sample
  column : b.sample.features ≠ []
  rows : 0 < b.sample.nSample
  rows_le : b.sample.nSample ≤ 10 ^ 5
  columns : ModerateColumns b
  criterion : b.criterion ≠ .gini
  labels : ∀ y ∈ b.sample.target, y = 1 ∨ y = -1
  binary : b.sample.isValidBinaryInstance = .ok ()

variable {L : Libm} {b : DecisionTreeBuilder ℝ}

theorem floatTree_conf (hb : FloatTreeData b) {t : FTree.Tree} (ht : FTree.build (10 ^ 5) b = some (.ok t)) {wl : WeakLearner F64 (TreeNode F64)}
    (hwl : FTree.IsLearner L t b.sample wl) {d : List F64} (hd : SoundWeights b.sample.nSample d) (it : Nat) :
    FTree.Produce L t b.sample d (some (wl it d)) ∧ ∀ e ∈ b.sample.rows, ∃ c : ℝ, conf (wl it d) e.1 = fin c ∧ |c| ≤ 1 := by
  obtain ⟨w, rfl, hw⟩ := treeWeights_of_sound hb.rows hd
  obtain ⟨t', t1, ⟨o, ho⟩, hall⟩ := tree_f64_trains_partial L b hb.sample hb.column hb.rows hb.rows_le hb.columns hb.criterion w hw
  have : t' = t := by
    have := t1 (10 ^ 5) le_rfl
    rw [ht] at this
    cases this
    rfl
  subst this
  obtain ⟨tree, rfl, -⟩ := hall o ho
  have hp := hwl it _ ⟨tree, ho⟩
  obtain ⟨tree', h1, h2⟩ := hall _ hp
  cases h1
  refine ⟨hp, fun e he => ?_⟩
  obtain ⟨i, hi, rfl⟩ := List.mem_map.mp he
  obtain ⟨x, hx, hx1⟩ := h2 i (List.mem_range.mp hi)
  refine ⟨x, ?_, hx1⟩
  show (FTree.confidence b.sample i (wl it (w.map fin))).getD nan = fin x
  rw [hx]
  rfl

theorem floatRows_binary (hb : FloatTreeData b) : checkBinary b.sample.rows = .ok () := by
  unfold checkBinary
  rw [floatRows_snd hb.sample, floatRows_length]
  exact hb.binary

/-- In the rounds that a run may reach the edges of the trees are in `[lo, hi]`. -/
def TreeEdges (L : Libm) (S : Sample ℝ) (wl : WeakLearner F64 (TreeNode F64)) (s : AdaBoostF (TreeNode F64)) (lo hi : ℝ) : Prop :=
  ∀ it st, FloatReach L S.rows wl s it st → it ≤ st.maxIter → lo ≤ exactEdge S.rows st.dist (wl it st.dist) ∧ exactEdge S.rows st.dist (wl it st.dist) ≤ hi

theorem floatTree_fair (hb : FloatTreeData b) {t : FTree.Tree} (ht : FTree.build (10 ^ 5) b = some (.ok t)) {wl : WeakLearner F64 (TreeNode F64)}
    (hwl : FTree.IsLearner L t b.sample wl) {s : AdaBoostF (TreeNode F64)} {lo hi : ℝ} (he : TreeEdges L b.sample wl s lo hi) :
    FairRun L b.sample.rows wl s lo hi :=
  ⟨fun it st _ _ hd => (floatTree_conf hb ht hwl (floatRows_length b.sample ▸ hd) it).2, fun it st hr hi _ => he it st hr hi⟩

theorem floatRows_ne (hb : FloatTreeData b) : b.sample.rows ≠ [] := by
  intro h
  have := floatRows_length b.sample
  rw [h] at this
  have := hb.rows
  simp at *
  omega

/-- C95, the weights: AdaBoost on decision trees, both in `f64`.  The learner is built, and whichever of the possible trees each call of `produce`
returns, if the edges of the trees stay within `±0.998`: every call of the learner is made with sound weights and returns a tree (no panic), the
run ends after the number of rounds asked for, and it fails only if no tree got a positive vote. -/
theorem adaboost_f64_trees (L : Libm) (b : DecisionTreeBuilder ℝ) (hb : FloatTreeData b) :
    ∃ t : FTree.Tree, FTree.build (10 ^ 5) b = some (.ok t) ∧ (∃ wl, FTree.IsLearner L t b.sample wl) ∧
      ∀ wl, FTree.IsLearner L t b.sample wl → ∀ s, TreeEdges L b.sample wl s (-(998 / 1000)) (998 / 1000) → ∀ r,
        (AdaBoostF.booster L b.sample.rows).Runs wl s r →
        (∃ f qs, r = .ok (f, qs) ∧ qs.length = floatLimit b.sample.rows s ∧
          ∀ d ∈ qs, SoundWeights b.sample.nSample d ∧ ∀ it, FTree.Produce L t b.sample d (some (wl it d))) ∨
        (r = .error .assertion ∧ ∃ st, FloatReach L b.sample.rows wl s (floatLimit b.sample.rows s + 1) st ∧
          ∀ p ∈ st.weights.zip st.hypotheses, ¬ Lt (fin 0) p.1) := by
  obtain ⟨t, t1, -⟩ := tree_build_f64_partial b hb.sample hb.rows (10 ^ 5) hb.columns
  have ht := t1 (10 ^ 5) le_rfl
  refine ⟨t, ht, exists_floatTreeLearner L t b.sample, fun wl hwl s he r hr => ?_⟩
  rcases adaboost_float_weights_sound L b.sample.rows (floatRows_labels hb.sample hb.labels) (floatRows_ne hb) (by rw [floatRows_length]; exact hb.rows_le)
    (floatRows_binary hb) wl s (floatTree_fair hb ht hwl he) hr with ⟨f, qs, h1, h2, h3⟩ | h
  · left
    refine ⟨f, qs, h1, h2, fun d hd => ?_⟩
    have h4 := h3 d hd
    rw [floatRows_length] at h4
    exact ⟨h4, fun it => (floatTree_conf hb ht hwl h4 it).1⟩
  · exact .inr h

/-- C95, the training error: with edges between `γ ≥ 0.001` and `0.998` and at most `900` rounds, `run` returns a vote of trees that is wrong on at most a
fraction `1.001 (√(1 - γ²) + 10⁻⁵)^T` of the rows. -/
theorem adaboost_f64_trees_error (L : Libm) (b : DecisionTreeBuilder ℝ) (hb : FloatTreeData b) {t : FTree.Tree}
    (ht : FTree.build (10 ^ 5) b = some (.ok t)) (wl : WeakLearner F64 (TreeNode F64)) (hwl : FTree.IsLearner L t b.sample wl) (γ : ℝ)
    (hγ : 1 / 1000 ≤ γ) (hγ2 : γ ≤ 998 / 1000) (s : AdaBoostF (TreeNode F64)) (he : TreeEdges L b.sample wl s γ (998 / 1000))
    (hT1 : 1 ≤ floatLimit b.sample.rows s) (hT : floatLimit b.sample.rows s ≤ 900) {r} (h : (AdaBoostF.booster L b.sample.rows).Runs wl s r) :
    ∃ f qs, r = .ok (f, qs) ∧ qs.length = floatLimit b.sample.rows s ∧
      (floatMistakes b.sample.rows f : ℝ) ≤ 1001 / 1000 * (Real.sqrt (1 - γ ^ 2) + 1 / 10 ^ 5) ^ floatLimit b.sample.rows s * b.sample.nSample := by
  obtain ⟨f, qs, h1, h2, -, h4⟩ := adaboost_float_training_error L b.sample.rows (floatRows_labels hb.sample hb.labels) (floatRows_ne hb)
    (by rw [floatRows_length]; exact hb.rows_le) (floatRows_binary hb) wl γ hγ hγ2 s (floatTree_fair hb ht hwl he) hT1 hT h
  rw [floatRows_length] at h4
  exact ⟨f, qs, h1, h2, h4⟩

/-! ## An example: three rows that no test separates -/

/-- A column with the same value in three rows, with the labels `1`, `1`, `-1`. -/
def sameSample : Sample ℝ := oneColumn [0, 0, 0] [1, 1, -1]

/-- The learner with the default options for this sample. -/
noncomputable def sameBuilder : DecisionTreeBuilder ℝ := DecisionTreeBuilder.new sameSample

theorem sameSample_bins : sameBuilder.nBins = [("x", 1)] := by
  have hd : distinct [(0 : ℝ), 0, 0] = 1 := by simp [distinct]
  unfold sameBuilder DecisionTreeBuilder.new sameSample oneColumn
  simp only [List.map_cons, List.map_nil, Feature.name, Feature.distinctValueCount, dense_distinct, hd]
  rfl

theorem sameBuilder_data : FloatTreeData sameBuilder where
  sample := oneColumn_ok rfl
  column := by simp [sameBuilder, DecisionTreeBuilder.new, sameSample, oneColumn]
  rows := by simp [sameBuilder, DecisionTreeBuilder.new, sameSample, oneColumn]
  rows_le := by simp [sameBuilder, DecisionTreeBuilder.new, sameSample, oneColumn]
  columns := by
    intro f hf
    have hf' : f ∈ [Feature.dense ⟨"x", [(0 : ℝ), 0, 0]⟩] := hf
    rw [List.mem_singleton] at hf'
    subst hf'
    have hv : ∀ v : ℝ, ValueOf 3 (.dense ⟨"x", [0, 0, 0]⟩) v ↔ v ∈ [(0 : ℝ), 0, 0] := fun v => valueOf_dense (n := 3) (f := ⟨"x", [0, 0, 0]⟩) rfl v
    refine ⟨1, 0, 0, 1, ?_, by norm_num, by norm_num, ⟨(hv _).mpr (by simp), (hv _).mpr (by simp), fun v h => ?_⟩, by norm_num, fun v h => ?_, by norm_num,
      Or.inl rfl⟩
    · rw [sameSample_bins]
      rfl
    · have := (hv v).mp h
      simp only [List.mem_cons, List.not_mem_nil, or_false] at this
      rcases this with rfl | rfl | rfl <;> norm_num
    · have := (hv v).mp h
      simp only [List.mem_cons, List.not_mem_nil, or_false] at this
      rcases this with rfl | rfl | rfl <;> norm_num
  criterion := by simp [sameBuilder, DecisionTreeBuilder.new]
  labels := by
    intro y hy
    have hy' : y ∈ [(1 : ℝ), 1, -1] := hy
    simp only [List.mem_cons, List.not_mem_nil, or_false] at hy'
    tauto
  binary := by
    have h1 : ⌊(1 : ℝ)⌋ = 1 := by norm_num
    have h2 : ⌈(-1 : ℝ)⌉ = -1 := by norm_num
    have h3 : ¬ (0 : ℝ) ≤ -1 := by norm_num
    simp [Sample.isValidBinaryInstance, isValidBinary, sameBuilder, DecisionTreeBuilder.new, sameSample, oneColumn, trunc, asI32, h1, h2, h3]

/-- Rounding a moderate number changes it by less than `10⁻¹²`. -/
theorem approx {z : ℝ} (hz : |z| ≤ 10) : ∃ y : ℝ, rnd z = fin y ∧ |y - z| ≤ 1 / 10 ^ 12 ∧ Double y := by
  refine ⟨F64.round z, rnd_small (hz.trans (by norm_num)), (round_err z).trans ?_, rep_round z⟩
  have h1 := u_small
  have h2 := eta_tiny
  have h3 := u_pos
  nlinarith

theorem double_twice {x : ℝ} (h : Double x) : Double (2 * x) := by
  obtain ⟨k, j, h1, h2, rfl⟩ := h
  refine ⟨k, j + 1, h1, by omega, ?_⟩
  rw [zpow_add₀ (by norm_num), zpow_one]
  ring

theorem perm_two {α : Type*} {a b : α} {l : List α} (h : l.Perm [a, b]) : l = [a, b] ∨ l = [b, a] := by
  match l, h.length_eq, h with
  | [x, y], _, h =>
    classical
    have hx : x = a ∨ x = b := by simpa using h.mem_iff.mp (by simp : x ∈ [x, y])
    rcases hx with rfl | rfl
    · left; rw [List.perm_cons, List.perm_singleton] at h; rw [h]
    · right
      have h2 := h.trans (List.Perm.swap x a [])
      rw [List.perm_cons, List.perm_singleton] at h2
      rw [h2]

/-- The confidence of the leaf. -/
theorem sameConf {x : ℝ} (hD : Double x) (hx : |x - 1 / 3| ≤ 1 / 10 ^ 12) {o : Option (F64 × F64)}
    (h : FTree.ConfLoss sameSample [fin x, fin x, fin x] [0, 1, 2] o) : ∃ (c : ℝ) (l : F64), o = some (fin c, l) ∧ |c - 1 / 3| ≤ 1 / 10 ^ 10 := by
  have hx' := abs_le.mp hx
  have a0 : add (fin 0) (fin x) = fin x := by
    simp only [add, zero_add]
    exact rnd_double hD (by rw [abs_le]; constructor <;> linarith)
  have a1 : add (fin x) (fin x) = fin (2 * x) := by
    simp only [add]
    rw [show x + x = 2 * x by ring]
    exact rnd_double (double_twice hD) (by rw [abs_le]; constructor <;> linarith)
  have a2 : add (fin 0) (fin (2 * x)) = fin (2 * x) := by
    simp only [add, zero_add]
    exact rnd_double (double_twice hD) (by rw [abs_le]; constructor <;> linarith)
  have hc : FTree.countLabels sameSample.target [fin x, fin x, fin x] [0, 1, 2] [] = some [(1, fin (2 * x)), (-1, fin x)] := by
    have t : sameSample.target = [1, 1, -1] := rfl
    rw [t]
    simp [FTree.countLabels, FTree.addTo, asI64_one, asI64_neg_one]
    rw [a0, a1]
    exact ⟨rfl, rfl⟩
  unfold FTree.ConfLoss at h
  rw [if_neg (by simp), hc] at h
  obtain ⟨total, ⟨l', hp', ht⟩, l, y, hp, hy, rfl⟩ := h
  obtain ⟨T, hT, hT', -⟩ := approx (z := 3 * x) (by rw [abs_le]; constructor <;> linarith)
  have hT'' := abs_le.mp hT'
  have htot : total = fin T := by
    rw [ht, ← hT]
    rcases perm_two hp' with rfl | rfl
    · simp only [List.map_cons, List.map_nil, List.foldl_cons, List.foldl_nil, a2]
      simp only [add]; ring_nf
    · simp only [List.map_cons, List.map_nil, List.foldl_cons, List.foldl_nil, a0]
      simp only [add]; ring_nf
  subst htot
  have hmem : ∀ a ∈ l, a = (1, fin (2 * x)) ∨ a = (-1, fin x) := fun a ha => by simpa using hp.mem_iff.mp ha
  have hnan : ∀ a ∈ l, a.2 ≠ nan := fun a ha => by rcases hmem a ha with rfl | rfl <;> simp
  have hy1 : y = some (1, fin (2 * x)) := by
    obtain ⟨a, ha, rfl⟩ := (FTree.extremum_ok (smallest := false) (key := fun p : Int × F64 => p.2) (by rintro rfl; simpa using hp.length_eq) hnan).2 y hy
    obtain ⟨-, hbest⟩ := FTree.extremum_best hnan hy
    rcases hmem a ha with rfl | rfl
    · rfl
    · have := hbest (1, fin (2 * x)) (hp.mem_iff.mpr (by simp))
      simp only [Bool.false_eq_true, if_false] at this
      exact absurd (show x < 2 * x by linarith) this
  subst hy1
  have hT0 : Lt (fin 0) (fin T) := by show 0 < T; linarith
  have hT1 : 0 < T := by linarith
  have hq : |2 * x / T - 2 / 3| ≤ 1 / 10 ^ 11 := by
    have : 2 * x / T - 2 / 3 = (2 * x - 2 / 3 * T) / T := by field_simp
    rw [this, abs_div, abs_of_pos hT1, div_le_iff₀ hT1, abs_le]
    constructor <;> linarith
  have hq' := abs_le.mp hq
  obtain ⟨q, hq1, hq2, -⟩ := approx (z := 2 * x / T) (by rw [abs_le]; constructor <;> linarith)
  have hq2' := abs_le.mp hq2
  obtain ⟨v, hv1, hv2, -⟩ := approx (z := 2 * q) (by rw [abs_le]; constructor <;> linarith)
  have hv2' := abs_le.mp hv2
  obtain ⟨w, hw1, hw2, -⟩ := approx (z := v + -1) (by rw [abs_le]; constructor <;> linarith)
  have hw2' := abs_le.mp hw2
  obtain ⟨m, hm1, hm2, -⟩ := approx (z := 1 * w) (by rw [abs_le]; constructor <;> linarith)
  have hm2' := abs_le.mp hm2
  have hone : ofInt 1 = fin 1 := by
    unfold ofInt
    push_cast
    exact rnd_double (by simpa using double_int (k := 1) (by norm_num)) (by norm_num)
  have hclamp : F64.clamp1 (fin m) = fin m := by
    unfold F64.clamp1
    exact (if_neg (show ¬ m < -1 by linarith)).trans (if_neg (show ¬ 1 < m by linarith))
  have hval : F64.clamp1 (mul (ofInt 1) (sub (mul (fin 2) (div (fin (2 * x)) (fin T))) (fin 1))) = fin m := by
    rw [hone]
    simp only [div, if_neg hT1.ne', hq1, mul, hv1, sub, neg, add, hw1, hm1]
    exact hclamp
  refine ⟨m, (FTree.leafValues (fin T) (1, fin (2 * x))).2, ?_, by rw [abs_le]; constructor <;> linarith⟩
  rw [Option.map_some]
  refine congrArg some (Prod.ext ?_ rfl)
  simp only [FTree.leafValues, hT0, if_true]
  exact hval

/-- A test with rows on both sides tells rows apart: here none does. -/
theorem sameSplit {r : Splitter F64} {l l' : List Nat} (h : FTree.splitRows r sameSample [0, 1, 2] = some (l, l')) : l = [] ∨ l' = [] := by
  have key : ∃ b, ∀ i < 3, FTree.goesLeft r sameSample i = b := by
    unfold FTree.goesLeft
    cases hb : sameSample.byName r.feature with
    | error e => exact ⟨none, fun _ _ => rfl⟩
    | ok f =>
      have hf : f = .dense ⟨"x", [0, 0, 0]⟩ := by
        unfold Sample.byName at hb
        split at hb
        · cases hb
        · split at hb
          · cases hb
          · rename_i k _ f' hk
            cases hb
            have := List.mem_of_getElem? hk
            simpa [sameSample, oneColumn] using this
      subst hf
      refine ⟨some (open Classical in decide (Lt (fin 0) r.threshold)), fun i hi => ?_⟩
      interval_cases i <;> rfl
  obtain ⟨b, hb⟩ := key
  unfold FTree.splitRows FTree.splitRows FTree.splitRows FTree.splitRows at h
  rw [hb 0 (by norm_num), hb 1 (by norm_num), hb 2 (by norm_num)] at h
  cases b with
  | none => cases h
  | some b =>
    cases b with
    | true => cases h; right; rfl
    | false => cases h; left; rfl

/-- Every tree that training on uniform weights may return is a leaf with a confidence of about one third. -/
theorem sameTree {t : FTree.Tree} {x : ℝ} (hD : Double x) (hx : |x - 1 / 3| ≤ 1 / 10 ^ 12) {tree : TreeNode F64}
    (h : FTree.Produce L t sameSample [fin x, fin x, fin x] (some tree)) : ∃ c : ℝ, tree = .leaf (fin c) ∧ |c - 1 / 3| ≤ 1 / 10 ^ 10 := by
  have hx' := abs_le.mp hx
  have hr : FTree.positiveRows [fin x, fin x, fin x] (List.range sameSample.nSample) = some [0, 1, 2] := by
    have hlt : Lt (fin 0) (fin x) := by show 0 < x; linarith
    show FTree.positiveRows [fin x, fin x, fin x] [0, 1, 2] = some [0, 1, 2]
    simp [FTree.positiveRows, hlt]
  unfold FTree.Produce at h
  rw [hr] at h
  simp only [List.cons_ne_nil, if_false] at h
  obtain ⟨o, hf, ho⟩ := h
  have leaf : ∀ (o' : Option (F64 × F64)) (total : F64) (c l : F64), FTree.ConfLoss sameSample [fin x, fin x, fin x] [0, 1, 2] o' → o' = some (c, l) →
      o = some (.leaf c total l) → ∃ c : ℝ, tree = .leaf (fin c) ∧ |c - 1 / 3| ≤ 1 / 10 ^ 10 := by
    rintro o' total c l hc rfl rfl
    obtain ⟨c', l', h1, h2⟩ := sameConf hD hx hc
    cases h1
    exact ⟨c', Option.some.inj ho, h2⟩
  have hsome : o ≠ none := by rintro rfl; cases ho
  cases hdep : t.maxDepth with
  | zero =>
    rw [hdep] at hf
    obtain ⟨a, c, ha, hc, h⟩ := hf
    match a, c, hc, h with
    | some total, some (cf, l), hc, h => exact leaf _ total cf l hc rfl h
    | none, _, _, h => exact absurd h hsome
    | some _, none, _, h => exact absurd h hsome
  | succ depth =>
    rw [hdep] at hf
    obtain ⟨a, c, ha, hc, h⟩ := hf
    match a, c, hc, h with
    | none, _, _, h => exact absurd h hsome
    | some _, none, _, h => exact absurd h hsome
    | some total, some (cf, l), hc, h =>
      rcases h with ⟨-, h⟩ | ⟨-, b, -, h⟩
      · exact leaf _ total cf l hc rfl h
      · match b, h with
        | none, h => exact absurd h hsome
        | some (feature, threshold), h =>
          simp only at h
          split at h
          · exact absurd h hsome
          · rename_i l₁ l₂ hsp
            rw [if_pos (sameSplit hsp)] at h
            exact leaf _ total cf l hc rfl h

theorem reach_first {H X : Type*} [Classifier H X F64] {S : Examples X ℝ} {wl : WeakLearner F64 H} {s st : AdaBoostF H} {it : Nat}
    (h : FloatReach L S wl s it st) : 1 ≤ it ∧ (it = 1 → AdaBoostF.preprocess S s = .ok st) ∧ st.maxIter = floatLimit S s := by
  induction h with
  | start h =>
    refine ⟨le_rfl, fun _ => h, ?_⟩
    change AdaBoostF.preprocess S s = _ at h
    unfold AdaBoostF.preprocess at h
    split at h
    · cases h
    · cases h; rfl
  | @next it s₁ out _ hb hf ih =>
    refine ⟨by omega, fun h => by omega, ?_⟩
    change AdaBoostF.Boost L S s₁ wl it _ at hb
    unfold AdaBoostF.Boost at hb
    split at hb
    · cases hb; cases hf
    · obtain ⟨edge, -, ⟨-, h⟩ | ⟨-, d, hd, h⟩⟩ := hb
      · cases h; cases hf
      · cases d with
        | error e => cases h
        | ok d => cases h; exact ih.2.2

/-- The booster for one round. -/
noncomputable def sameBooster : AdaBoostF (TreeNode F64) := { AdaBoostF.init sameSample.rows with forceQuitAt := some 1 }

theorem sameDist {st : AdaBoostF (TreeNode F64)} (h : AdaBoostF.preprocess sameSample.rows sameBooster = .ok st) :
    ∃ x : ℝ, st.dist = [fin x, fin x, fin x] ∧ Double x ∧ |x - 1 / 3| ≤ 1 / 10 ^ 12 := by
  obtain ⟨x, h1, h2, h3⟩ := approx (z := 1 / 3) (by norm_num [abs_of_pos])
  refine ⟨x, ?_, h3, h2⟩
  unfold AdaBoostF.preprocess at h
  split at h
  · cases h
  · cases h
    have hd : div (fin 1) (fin ((sameSample.rows.length : ℕ) : ℝ)) = fin x := by
      rw [floatRows_length]
      show div (fin 1) (fin ((3 : ℕ) : ℝ)) = fin x
      simp only [div]
      rw [if_neg (by norm_num), ← h1]
      norm_num
    simp only [hd]
    rw [floatRows_length]
    rfl

/-- The edges of the trees of one round. -/
theorem sameEdges_of {t : FTree.Tree} {wl : WeakLearner F64 (TreeNode F64)}
    (hwl : ∀ d, SoundWeights sameSample.nSample d → (∀ q ∈ d, 1 / 4 ≤ F64.val q) → FTree.Produce L t sameSample d (some (wl 1 d))) : TreeEdges L sameSample wl sameBooster (1 / 10) (998 / 1000) := by
  intro it st hr hi
  obtain ⟨h1, h2, h3⟩ := reach_first hr
  have hit : it = 1 := by
    have : floatLimit sameSample.rows sameBooster = 1 := rfl
    omega
  subst hit
  have hp := h2 rfl
  obtain ⟨x, hd, hD, hx⟩ := sameDist hp
  have hx' := abs_le.mp hx
  have hsound : SoundWeights sameSample.nSample st.dist := by
    rw [hd]
    refine ⟨[x, x, x], rfl, rfl, ?_, ?_, ?_⟩
    · intro y hy
      simp only [List.mem_cons, List.not_mem_nil, or_false, or_self] at hy
      subst hy
      rw [two_eta]
      have := eta_tiny
      linarith
    · simp only [List.sum_cons, List.sum_nil]
      rw [abs_le]; constructor <;> linarith
    · intro y hy
      simp only [List.mem_cons, List.not_mem_nil, or_false, or_self] at hy
      subst hy
      exact hD
  have hquarter : ∀ q ∈ st.dist, 1 / 4 ≤ F64.val q := by
    intro q hq
    rw [hd] at hq
    simp only [List.mem_cons, List.not_mem_nil, or_false, or_self] at hq
    subst hq
    show 1 / 4 ≤ x
    linarith
  have hprod := hwl _ hsound hquarter
  rw [hd] at hprod ⊢
  obtain ⟨c, htree, hc⟩ := sameTree hD hx hprod
  have hc' := abs_le.mp hc
  have hE : exactEdge sameSample.rows [fin x, fin x, fin x] (wl 1 [fin x, fin x, fin x]) = x * c := by
    rw [htree]
    have hr : sameSample.rows = [((sameSample, 0), 1), ((sameSample, 1), 1), ((sameSample, 2), -1)] := rfl
    have hcf : ∀ i, (conf (TreeNode.leaf (fin c) : TreeNode F64) (sameSample, i) : F64).val = c := fun i => by
      show ((FTree.confidence sameSample i (.leaf (fin c))).getD nan).val = c
      rw [FTree.confidence]
      rfl
    rw [exactEdge, hr]
    simp only [List.zipWith_cons_cons, List.zipWith_nil_left, List.sum_cons, List.sum_nil, hcf]
    simp only [F64.val]
    ring
  rw [hE]
  constructor <;> nlinarith

/-- The hypotheses of C95 are met: with a learner built from this sample the edges are about one ninth. -/
theorem sameEdges {t : FTree.Tree} (ht : FTree.build (10 ^ 5) sameBuilder = some (.ok t)) {wl : WeakLearner F64 (TreeNode F64)}
    (hwl : FTree.IsLearner L t sameSample wl) : TreeEdges L sameSample wl sameBooster (1 / 10) (998 / 1000) :=
  sameEdges_of fun _ hd _ => (floatTree_conf sameBuilder_data ht hwl hd 1).1

/-- So the run returns a classifier. -/
example (L : Libm) : ∃ (t : FTree.Tree) (wl : WeakLearner F64 (TreeNode F64)), FTree.build (10 ^ 5) sameBuilder = some (.ok t) ∧ FTree.IsLearner L t sameSample wl ∧
    (∃ r, (AdaBoostF.booster L sameSample.rows).Runs wl sameBooster r) ∧
    ∀ r, (AdaBoostF.booster L sameSample.rows).Runs wl sameBooster r → ∃ f qs, r = .ok (f, qs) ∧ qs.length = 1 := by
  obtain ⟨t, ht, ⟨wl, hwl⟩, -⟩ := adaboost_f64_trees L sameBuilder sameBuilder_data
  refine ⟨t, wl, ht, hwl, exists_float_run L _ wl _, fun r hr => ?_⟩
  obtain ⟨f, qs, h1, h2, -⟩ := adaboost_f64_trees_error L sameBuilder sameBuilder_data ht wl hwl (1 / 10) (by norm_num) (by norm_num) sameBooster
    (sameEdges ht hwl) le_rfl (by show 1 ≤ 900; norm_num) hr
  exact ⟨f, qs, h1, h2⟩

end Miniboosts.Props
