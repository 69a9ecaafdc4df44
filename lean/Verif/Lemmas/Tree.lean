import Verif.Lemmas.BestSplit

set_option linter.unusedSectionVars false

namespace Miniboosts

open Spec

variable {K : Type*} [Field K] [LinearOrder K] [IsStrictOrderedRing K]

/-! ## Routing -/

theorem find_name {s : Sample K} (hs : SampleOk s) {f : Feature K} (hf : f ∈ s.features) :
    s.features.find? (fun g => g.name = f.name) = some f := by
  have hn := hs.names
  generalize s.features = l at hf hn
  induction l with
  | nil => cases hf
  | cons g l ih =>
    simp only [List.map_cons, List.nodup_cons] at hn
    rcases List.mem_cons.mp hf with rfl | hf
    · simp
    · have : g.name ≠ f.name := by
        intro h; exact hn.1 (List.mem_map.mpr ⟨f, hf, h.symm⟩)
      rw [List.find?_cons_of_neg (by simpa using this)]
      exact ih hf hn.2

theorem cell_eq {s : Sample K} (hs : SampleOk s) {f : Feature K} (hf : f ∈ s.features) (i : Nat) : cell s f.name i = f.val i := by
  unfold cell
  rw [find_name hs hf]; rfl

theorem goesLeft_cell {s : Sample K} (hs : SampleOk s) {rule : Splitter K} {i : Nat} (hi : i < s.nSample) {b : Bool}
    (h : rule.goesLeft s i = .ok b) : b = decide (cell s rule.feature i < rule.threshold) := by
  unfold Splitter.goesLeft at h
  by_cases hm : rule.feature ∈ s.features.map Feature.name
  · obtain ⟨f, hf, e⟩ := List.mem_map.mp hm
    rw [← e, Sample.byName_ok hs.names hs.table hf] at h
    simp only [Feature.index_val (hs.columns f hf) hi, Except.map, Except.ok.injEq] at h
    rw [← e, cell_eq hs hf]; exact h.symm
  · rw [Sample.byName_missing hs.table hm] at h
    cases h

theorem goesLeft_ok {s : Sample K} (hs : SampleOk s) {f : Feature K} (hf : f ∈ s.features) (t : K) {i : Nat} (hi : i < s.nSample) :
    Splitter.goesLeft ⟨f.name, t⟩ s i = .ok (decide (f.val i < t)) := by
  unfold Splitter.goesLeft
  simp only
  rw [Sample.byName_ok hs.names hs.table hf]
  simp only [Feature.index_val (hs.columns f hf) hi, Except.map]

/-- Row `i` passes the test of the rule. -/
def leftOf (s : Sample K) (rule : Splitter K) (i : Nat) : Bool := decide (cell s rule.feature i < rule.threshold)

theorem splitRows_spec {s : Sample K} (hs : SampleOk s) (rule : Splitter K) (idx : List Nat) (hidx : ∀ i ∈ idx, i < s.nSample) :
    ∀ l r, DecisionTree.splitRows rule s idx = .ok (l, r) →
      l = idx.filter (leftOf s rule) ∧ r = idx.filter (fun i => !leftOf s rule i) ∧
      ∀ i ∈ idx, rule.goesLeft s i = .ok (leftOf s rule i) := by
  induction idx with
  | nil =>
    intro l r h
    simp only [DecisionTree.splitRows, Except.ok.injEq, Prod.mk.injEq] at h
    obtain ⟨rfl, rfl⟩ := h
    simp
  | cons i idx ih =>
    intro l r h
    unfold DecisionTree.splitRows at h
    cases hg : rule.goesLeft s i with
    | error e => rw [hg] at h; cases h
    | ok b =>
      rw [hg] at h
      simp only at h
      cases hr : DecisionTree.splitRows rule s idx with
      | error e => rw [hr] at h; cases h
      | ok q =>
        rw [hr] at h
        obtain ⟨i1, i2, i3⟩ := ih (fun j hj => hidx j (List.mem_cons_of_mem _ hj)) q.1 q.2 hr
        have hb : b = leftOf s rule i := goesLeft_cell hs (hidx i (by simp)) hg
        simp only [Except.map, Except.ok.injEq] at h
        refine ⟨?_, ?_, ?_⟩
        · cases b
          · simp only [Bool.false_eq_true, if_false, Prod.mk.injEq] at h
            rw [List.filter_cons_of_neg (by rw [← hb]; simp), ← i1, h.1]
          · simp only [if_true, Prod.mk.injEq] at h
            rw [List.filter_cons_of_pos (by rw [← hb]), ← i1, h.1]
        · cases b
          · simp only [Bool.false_eq_true, if_false, Prod.mk.injEq] at h
            rw [List.filter_cons_of_pos (by rw [← hb]; simp), ← i2, h.2]
          · simp only [if_true, Prod.mk.injEq] at h
            rw [List.filter_cons_of_neg (by rw [← hb]; simp), ← i2, h.2]
        · intro j hj
          rcases List.mem_cons.mp hj with rfl | hj
          · rw [hg, hb]
          · exact i3 j hj

theorem splitRows_ok {s : Sample K} (hs : SampleOk s) {f : Feature K} (hf : f ∈ s.features) (t : K) (idx : List Nat)
    (hidx : ∀ i ∈ idx, i < s.nSample) :
    DecisionTree.splitRows ⟨f.name, t⟩ s idx =
      .ok (idx.filter (leftOf s ⟨f.name, t⟩), idx.filter (fun i => !leftOf s ⟨f.name, t⟩ i)) := by
  have : ∃ l r, DecisionTree.splitRows ⟨f.name, t⟩ s idx = .ok (l, r) := by
    induction idx with
    | nil => exact ⟨[], [], rfl⟩
    | cons i idx ih =>
      obtain ⟨l, r, e⟩ := ih (fun j hj => hidx j (List.mem_cons_of_mem _ hj))
      unfold DecisionTree.splitRows
      rw [goesLeft_ok hs hf t (hidx i (by simp)), e]
      exact ⟨_, _, rfl⟩
  obtain ⟨l, r, e⟩ := this
  obtain ⟨h1, h2, _⟩ := splitRows_spec hs ⟨f.name, t⟩ idx hidx l r e
  rw [e, h1, h2]

/-! ## Leaves -/

variable [FloorRing K]

/-- The weight of the rows with label `y`. -/
def classW (s : Sample K) (dist : List K) (idx : List Nat) (y : Int) : K :=
  (idx.map (fun i => if asI64 (s.target.getD i 0) = y then dist.getD i 0 else 0)).sum

theorem countLabels_ok {s : Sample K} {dist : List K} (idx : List Nat) (hidx : ∀ i ∈ idx, i < s.target.length ∧ i < dist.length) :
    ∀ (m : LabelMap K) (w : Int → K), MapIs m w → ∃ m', countLabels s.target dist idx m = .ok m' ∧
      MapIs m' (fun y => w y + classW s dist idx y) ∧ (idx ≠ [] → m' ≠ []) ∧ (m ≠ [] → m' ≠ []) ∧
      HMap.total m' = HMap.total m + weightOf dist idx := by
  induction idx with
  | nil => intro m w h; exact ⟨m, rfl, mapIs_congr h (fun y => by simp [classW]), by simp, fun h => h, by simp [weightOf]⟩
  | cons i idx ih =>
    intro m w h
    obtain ⟨h1, h2⟩ := hidx i (by simp)
    unfold countLabels
    rw [vecAt_ok h1 0, vecAt_ok h2 0]
    obtain ⟨m', e1, e2, e3, e4, e5⟩ := ih (fun j hj => hidx j (List.mem_cons_of_mem _ hj)) _ _ (mapIs_addTo h (asI64 (s.target.getD i 0)) (dist.getD i 0))
    have hne : HMap.addTo m (asI64 (s.target.getD i 0)) (dist.getD i 0) ≠ [] := by
      cases m with
      | nil => simp [HMap.addTo]
      | cons p m => unfold HMap.addTo; split <;> simp
    refine ⟨m', e1, mapIs_congr e2 (fun y => ?_), fun _ => e4 hne, fun _ => e4 hne, ?_⟩
    · simp only [classW, List.map_cons, List.sum_cons]; ring
    · rw [e5, HMap.total_addTo]; simp [weightOf]; ring

/-- The confidence, weight and loss which a leaf fitted on the rows carries: `label` is a heaviest label, of weight `p`. -/
def LeafOk (s : Sample K) (dist : List K) (idx : List Nat) (c w l : K) : Prop :=
  w = weightOf dist idx ∧ ∃ (label : Int) (p : K), p = classW s dist idx label ∧ (∀ y, classW s dist idx y ≤ p) ∧
    c = clamp1 ((label : K) * (2 * (p / w) - 1)) ∧ l = w - p

omit [FloorRing K] in
theorem weightOf_pos {dist : List K} {idx : List Nat} (hne : idx ≠ []) (h : ∀ i ∈ idx, 0 < dist.getD i 0) : 0 < weightOf dist idx := by
  apply List.sum_pos
  · intro v hv
    obtain ⟨i, hi, rfl⟩ := List.mem_map.mp hv
    exact h i hi
  · simpa using hne

theorem classW_nonneg {s : Sample K} {dist : List K} {idx : List Nat} (h : ∀ i ∈ idx, 0 < dist.getD i 0) (y : Int) :
    0 ≤ classW s dist idx y := by
  apply List.sum_nonneg
  intro v hv
  obtain ⟨i, hi, rfl⟩ := List.mem_map.mp hv
  split
  · exact (h i hi).le
  · exact le_refl _

theorem confidenceAndLoss_ok {env : TreeEnv K} (horder : ∀ m, (env.order m).Perm m) {s : Sample K} {dist : List K} {idx : List Nat}
    (hne : idx ≠ []) (hidx : ∀ i ∈ idx, i < s.target.length ∧ i < dist.length ∧ 0 < dist.getD i 0) :
    ∃ c l, confidenceAndLoss env s dist idx = .ok (c, l) ∧ LeafOk s dist idx c (weightOf dist idx) l := by
  have hpos := weightOf_pos hne (fun i hi => (hidx i hi).2.2)
  obtain ⟨m, e1, e2, e3, _, e5⟩ := countLabels_ok (s := s) (dist := dist) idx (fun i hi => ⟨(hidx i hi).1, (hidx i hi).2.1⟩) [] _ mapIs_nil
  have e5' : HMap.total m = weightOf dist idx := by rw [e5]; simp [HMap.total]
  have hord : env.order m ≠ [] := by
    intro h
    have := (horder m).length_eq
    rw [h] at this
    exact e3 hne (List.length_eq_zero_iff.mp this.symm)
  obtain ⟨⟨label, p⟩, p1, p2, p3⟩ := maxBy_spec (fun p : Int × K => p.2) hord
  unfold confidenceAndLoss
  rw [if_neg hne, e1]
  simp only [p1, e5', if_pos hpos]
  refine ⟨_, _, rfl, rfl, label, p, ?_, ?_, rfl, ?_⟩
  · have := mapIs_mem e2 ((horder m).mem_iff.mp p2)
    simp only [zero_add] at this
    exact this.symm
  · intro y
    have hv := e2.val y
    rw [zero_add] at hv
    rw [← hv]
    cases hg : HMap.get? m y with
    | some v =>
      have := p3 (y, v) ((horder m).mem_iff.mpr (HMap.get?_eq_some_mem hg))
      simpa using this
    | none =>
      have h0 := mapIs_mem e2 ((horder m).mem_iff.mp p2)
      simp only [zero_add] at h0
      rw [Option.getD_none, ← h0]
      exact classW_nonneg (fun i hi => (hidx i hi).2.2) _
  · have := hpos.ne'
    field_simp

/-! ## Growing -/

/-- The tree was grown on the rows: every node carries the statistics of the rows which reach it, tests separate
them into two non-empty parts. -/
def Grown (s : Sample K) (dist : List K) : List Nat → TrainNode K → Prop
  | idx, .leaf c w l => LeafOk s dist idx c w l
  | idx, .branch rule left right c w l _ =>
    LeafOk s dist idx c w l ∧ l ≠ 0 ∧ idx.filter (leftOf s rule) ≠ [] ∧ idx.filter (fun i => !leftOf s rule i) ≠ [] ∧
    (∀ i ∈ idx, rule.goesLeft s i = .ok (leftOf s rule i)) ∧
    Grown s dist (idx.filter (leftOf s rule)) left ∧ Grown s dist (idx.filter (fun i => !leftOf s rule i)) right

/-- The rows a node is grown on. -/
def RowsOk (s : Sample K) (dist : List K) (idx : List Nat) : Prop :=
  idx ≠ [] ∧ ∀ i ∈ idx, i < s.nSample ∧ 0 < dist.getD i 0

theorem rowsOk_filter {s : Sample K} {dist : List K} {idx : List Nat} (h : RowsOk s dist idx) {p : Nat → Bool}
    (hne : idx.filter p ≠ []) : RowsOk s dist (idx.filter p) :=
  ⟨hne, fun i hi => h.2 i (List.mem_filter.mp hi).1⟩

theorem sumDist_ok {dist : List K} {idx : List Nat} (h : ∀ i ∈ idx, i < dist.length) :
    DecisionTree.sumDist dist idx = .ok (weightOf dist idx) := by
  induction idx with
  | nil => rfl
  | cons i idx ih =>
    unfold DecisionTree.sumDist
    rw [vecAt_ok (h i (by simp)) 0, ih (fun j hj => h j (List.mem_cons_of_mem _ hj))]
    simp [Except.map, weightOf]

theorem fullTree_grown {env : TreeEnv K} (horder : ∀ m, (env.order m).Perm m) {t : DecisionTree K} {s : Sample K} (hs : SampleOk s)
    {dist : List K} (hd : dist.length = s.nSample) : ∀ (depth : Nat) (idx : List Nat) (node : TrainNode K), RowsOk s dist idx →
      DecisionTree.fullTree env t s dist depth idx = .ok node → Grown s dist idx node := by
  intro depth
  induction depth with
  | zero =>
    intro idx node hr h
    obtain ⟨c, l, e1, e2⟩ := confidenceAndLoss_ok horder (s := s) (dist := dist) hr.1
      (fun i hi => ⟨by rw [hs.labels]; exact (hr.2 i hi).1, by rw [hd]; exact (hr.2 i hi).1, (hr.2 i hi).2⟩)
    unfold DecisionTree.fullTree at h
    rw [sumDist_ok (fun i hi => by rw [hd]; exact (hr.2 i hi).1), e1] at h
    simp only [Except.ok.injEq] at h
    subst h
    exact e2
  | succ depth ih =>
    intro idx node hr h
    obtain ⟨c, l, e1, e2⟩ := confidenceAndLoss_ok horder (s := s) (dist := dist) hr.1
      (fun i hi => ⟨by rw [hs.labels]; exact (hr.2 i hi).1, by rw [hd]; exact (hr.2 i hi).1, (hr.2 i hi).2⟩)
    unfold DecisionTree.fullTree at h
    rw [sumDist_ok (fun i hi => by rw [hd]; exact (hr.2 i hi).1), e1] at h
    simp only at h
    split at h
    · simp only [Except.ok.injEq] at h
      subst h
      exact e2
    · rename_i hl
      cases hb : t.criterion.bestSplit env t.bins s dist idx with
      | error e => rw [hb] at h; cases h
      | ok q =>
        obtain ⟨feature, threshold⟩ := q
        rw [hb] at h
        simp only at h
        cases hsp : DecisionTree.splitRows ⟨feature, threshold⟩ s idx with
        | error e => rw [hsp] at h; cases h
        | ok q =>
          obtain ⟨li, ri⟩ := q
          rw [hsp] at h
          simp only at h
          obtain ⟨s1, s2, s3⟩ := splitRows_spec hs ⟨feature, threshold⟩ idx (fun i hi => (hr.2 i hi).1) li ri hsp
          split at h
          · simp only [Except.ok.injEq] at h
            subst h
            exact e2
          · rename_i hlr
            rw [not_or] at hlr
            cases hL : DecisionTree.fullTree env t s dist depth li with
            | error e => rw [hL] at h; cases h
            | ok ltree =>
              rw [hL] at h
              simp only at h
              cases hR : DecisionTree.fullTree env t s dist depth ri with
              | error e => rw [hR] at h; cases h
              | ok rtree =>
                rw [hR] at h
                simp only [Except.ok.injEq] at h
                subst h
                rw [s1] at hL hlr
                rw [s2] at hR hlr
                refine ⟨e2, hl, hlr.1, hlr.2, s3, ?_, ?_⟩
                · exact ih _ _ (rowsOk_filter hr hlr.1) hL
                · exact ih _ _ (rowsOk_filter hr hlr.2) hR

/-! ## Nothing to prune -/

omit [FloorRing K] in
theorem sum_filter_add {A : Type*} (p : A → Bool) (g : A → K) (l : List A) :
    ((l.filter p).map g).sum + ((l.filter (fun a => !p a)).map g).sum = (l.map g).sum := by
  induction l with
  | nil => simp
  | cons a l ih =>
    by_cases h : p a = true
    · simp only [List.filter_cons, h, if_true, Bool.not_true, Bool.false_eq_true, if_false, List.map_cons, List.sum_cons]
      rw [← ih]; ring
    · rw [Bool.not_eq_true] at h
      simp only [List.filter_cons, h, Bool.not_false, Bool.false_eq_true, if_true, if_false, List.map_cons, List.sum_cons]
      rw [← ih]; ring

theorem classW_filter (s : Sample K) (dist : List K) (idx : List Nat) (p : Nat → Bool) (y : Int) :
    classW s dist (idx.filter p) y + classW s dist (idx.filter (fun i => !p i)) y = classW s dist idx y :=
  sum_filter_add p _ idx

theorem weightOf_filter (dist : List K) (idx : List Nat) (p : Nat → Bool) :
    weightOf dist (idx.filter p) + weightOf dist (idx.filter (fun i => !p i)) = weightOf dist idx :=
  sum_filter_add p _ idx

theorem classW_le {s : Sample K} {dist : List K} {idx : List Nat} (h : ∀ i ∈ idx, 0 < dist.getD i 0) (y : Int) :
    classW s dist idx y ≤ weightOf dist idx := by
  unfold classW weightOf
  apply List.sum_le_sum
  intro i hi
  split
  · exact le_refl _
  · exact (h i hi).le

theorem grown_leafOk {s : Sample K} {dist : List K} {idx : List Nat} {node : TrainNode K} (h : Grown s dist idx node) :
    ∃ c w l, LeafOk s dist idx c w l ∧ node.cost = l * w := by
  cases node with
  | leaf c w l => exact ⟨c, w, l, h, rfl⟩
  | branch rule left right c w l n => exact ⟨c, w, l, h.1, rfl⟩

theorem removeRedundant_id {s : Sample K} {dist : List K} (node : TrainNode K) : ∀ {idx : List Nat}, RowsOk s dist idx →
    Grown s dist idx node → node.removeRedundant = node := by
  induction node with
  | leaf c w l => intro idx _ _; rfl
  | branch rule left right c w l n ihl ihr =>
    intro idx hr h
    obtain ⟨h1, h2, h3, h4, _, h5, h6⟩ := h
    have rl := rowsOk_filter hr h3
    have rr := rowsOk_filter hr h4
    unfold TrainNode.removeRedundant
    rw [ihl rl h5, ihr rr h6]
    have hne : ¬ l * w = left.cost + right.cost := by
      obtain ⟨c1, w1, l1, ⟨k1, y1, p1, a1, b1, -, d1⟩, f1⟩ := grown_leafOk h5
      obtain ⟨c2, w2, l2, ⟨k2, y2, p2, a2, b2, -, d2⟩, f2⟩ := grown_leafOk h6
      obtain ⟨k, y, p, a, b, -, d⟩ := h1
      have hw1 := weightOf_pos rl.1 (fun i hi => (rl.2 i hi).2)
      have hw2 := weightOf_pos rr.1 (fun i hi => (rr.2 i hi).2)
      have hsum := weightOf_filter dist idx (leftOf s rule)
      have hc := classW_filter s dist idx (leftOf s rule) y
      rw [← k1] at hw1 hsum
      rw [← k2, ← k] at hsum
      rw [← k2] at hw2
      have hp : p ≤ p1 + p2 := by rw [a, ← hc]; exact add_le_add (b1 y) (b2 y)
      have hp1 : p1 ≤ w1 := by rw [a1, k1]; exact classW_le (fun i hi => (rl.2 i hi).2) y1
      have hp2 : p2 ≤ w2 := by rw [a2, k2]; exact classW_le (fun i hi => (rr.2 i hi).2) y2
      rw [f1, f2]
      intro heq
      have hl : l1 + l2 ≤ l := by rw [d, d1, d2]; linarith
      have g1 : 0 ≤ l1 := by rw [d1]; linarith
      have g2 : 0 ≤ l2 := by rw [d2]; linarith
      rw [← hsum] at heq
      have hlpos : 0 < l := lt_of_le_of_ne (by linarith) (Ne.symm h2)
      have t1 : (l1 + l2) * (w1 + w2) ≤ l * (w1 + w2) := mul_le_mul_of_nonneg_right hl (by linarith)
      have t2 : l1 * w2 + l2 * w1 ≤ 0 := by nlinarith
      have t3 : 0 ≤ l1 * w2 := mul_nonneg g1 hw2.le
      have t4 : 0 ≤ l2 * w1 := mul_nonneg g2 hw1.le
      have z1 : l1 = 0 := by
        have : l1 * w2 = 0 := by linarith
        rcases mul_eq_zero.mp this with h | h
        · exact h
        · exact absurd h hw2.ne'
      have z2 : l2 = 0 := by
        have : l2 * w1 = 0 := by linarith
        rcases mul_eq_zero.mp this with h | h
        · exact h
        · exact absurd h hw1.ne'
      rw [z1, z2] at heq
      have : 0 < l * (w1 + w2) := mul_pos hlpos (by linarith)
      linarith
    rw [if_neg hne]
    simp

/-! ## What a grown tree computes -/

/-- The value a tree gives to row `i`. -/
def evalAt (s : Sample K) (i : Nat) : TreeNode K → K
  | .leaf c => c
  | .branch rule left right => if leftOf s rule i then evalAt s i left else evalAt s i right

theorem grown_confidence {s : Sample K} {dist : List K} (node : TrainNode K) : ∀ {idx : List Nat}, Grown s dist idx node →
    ∀ i ∈ idx, (TreeNode.ofTrain node).confidence s i = .ok (evalAt s i (TreeNode.ofTrain node)) := by
  induction node with
  | leaf c w l => intro idx _ i _; rfl
  | branch rule left right c w l n ihl ihr =>
    intro idx h i hi
    obtain ⟨h1, h2, h3, h4, h7, h5, h6⟩ := h
    simp only [TreeNode.ofTrain, TreeNode.confidence, h7 i hi, evalAt]
    cases hb : leftOf s rule i with
    | true => exact ihl h5 i (List.mem_filter.mpr ⟨hi, hb⟩)
    | false => exact ihr h6 i (List.mem_filter.mpr ⟨hi, by simp [hb]⟩)

theorem asI64_one : asI64 (1 : K) = 1 := by
  have : trunc (1 : K) = 1 := by
    unfold trunc
    rw [if_pos zero_le_one]; exact Int.floor_one
  unfold asI64; rw [this]; decide

theorem asI64_neg_one : asI64 (-1 : K) = -1 := by
  have : trunc (-1 : K) = -1 := by
    unfold trunc
    rw [if_neg (by have : (0 : K) < 1 := one_pos; linarith), Int.ceil_neg, Int.floor_one]
  unfold asI64; rw [this]; decide

theorem pm_class {s : Sample K} {dist : List K} {idx : List Nat} (hpm : ∀ i ∈ idx, s.target.getD i 0 = 1 ∨ s.target.getD i 0 = -1) :
    classW s dist idx 1 + classW s dist idx (-1) = weightOf dist idx ∧
    classW s dist idx 1 - classW s dist idx (-1) = labelSum s dist idx ∧
    ∀ y, y ≠ 1 → y ≠ -1 → classW s dist idx y = 0 := by
  unfold classW weightOf labelSum
  induction idx with
  | nil => simp
  | cons i idx ih =>
    obtain ⟨h1, h2, h3⟩ := ih (fun j hj => hpm j (List.mem_cons_of_mem _ hj))
    simp only [List.map_cons, List.sum_cons]
    rw [← h1, ← h2]
    rcases hpm i (by simp) with h | h
    · refine ⟨?_, ?_, ?_⟩
      · rw [h, asI64_one]; simp; ring
      · rw [h, asI64_one]; simp; ring
      · intro y y1 y2
        rw [h, asI64_one, h3 y y1 y2]; simp [Ne.symm y1]
    · refine ⟨?_, ?_, ?_⟩
      · rw [h, asI64_neg_one]; simp; ring
      · rw [h, asI64_neg_one]; simp; ring
      · intro y y1 y2
        rw [h, asI64_neg_one, h3 y y1 y2]; simp [Ne.symm y2]

theorem clamp1_id {x : K} (h1 : -1 ≤ x) (h2 : x ≤ 1) : clamp1 x = x := by
  unfold clamp1
  rw [min_eq_left h2, max_eq_right h1]

theorem clamp1_range (x : K) : -1 ≤ clamp1 x ∧ clamp1 x ≤ 1 := by
  unfold clamp1
  refine ⟨le_max_left _ _, max_le (by have : (0 : K) < 1 := one_pos; linarith) (min_le_right _ _)⟩

theorem leafOk_mean {s : Sample K} {dist : List K} {idx : List Nat} (hr : RowsOk s dist idx)
    (hpm : ∀ i ∈ idx, s.target.getD i 0 = 1 ∨ s.target.getD i 0 = -1) {c w l : K} (h : LeafOk s dist idx c w l) :
    c * weightOf dist idx = labelSum s dist idx := by
  obtain ⟨k, y, p, a, b, d, -⟩ := h
  obtain ⟨h1, h2, h3⟩ := pm_class (s := s) (dist := dist) hpm
  have hpos := weightOf_pos hr.1 (fun i hi => (hr.2 i hi).2)
  have n1 := classW_nonneg (s := s) (fun i hi => (hr.2 i hi).2) 1
  have n2 := classW_nonneg (s := s) (fun i hi => (hr.2 i hi).2) (-1)
  have b1 := b 1
  have b2 := b (-1)
  have hp : 0 < p := by
    by_contra hn
    linarith
  have hy : y = 1 ∨ y = -1 := by
    by_contra hn
    rw [not_or] at hn
    rw [h3 y hn.1 hn.2] at a
    exact hp.ne' a
  rw [d, k]
  have hp' : p ≤ weightOf dist idx := by rw [a]; exact classW_le (fun i hi => (hr.2 i hi).2) y
  have q1 : 0 ≤ p / weightOf dist idx := div_nonneg hp.le hpos.le
  have q2 : p / weightOf dist idx ≤ 1 := (div_le_one hpos).mpr hp'
  rcases hy with rfl | rfl
  · rw [clamp1_id (by push_cast; linarith) (by push_cast; linarith)]
    have := hpos.ne'
    rw [← h2]
    field_simp
    push_cast
    rw [a, ← h1]; ring
  · rw [clamp1_id (by push_cast; linarith) (by push_cast; linarith)]
    have := hpos.ne'
    rw [← h2]
    field_simp
    push_cast
    rw [a, ← h1]; ring

omit [FloorRing K] in
theorem path_branch (s : Sample K) (i : Nat) (rule : Splitter K) (left right : TreeNode K) :
    path s i (.branch rule left right) = if leftOf s rule i then true :: path s i left else false :: path s i right := by
  simp [path, leftOf]

theorem grown_mean {s : Sample K} {dist : List K} (node : TrainNode K) : ∀ {idx : List Nat}, RowsOk s dist idx →
    (∀ i ∈ idx, s.target.getD i 0 = 1 ∨ s.target.getD i 0 = -1) → Grown s dist idx node → ∀ i ∈ idx,
    evalAt s i (TreeNode.ofTrain node) *
        weightOf dist (idx.filter (fun j => path s j (TreeNode.ofTrain node) = path s i (TreeNode.ofTrain node)))
      = labelSum s dist (idx.filter (fun j => path s j (TreeNode.ofTrain node) = path s i (TreeNode.ofTrain node))) := by
  induction node with
  | leaf c w l =>
    intro idx hr hpm h i hi
    simp only [TreeNode.ofTrain, path, decide_true, List.filter_true, evalAt]
    exact leafOk_mean hr hpm h
  | branch rule left right c w l n ihl ihr =>
    intro idx hr hpm h i hi
    obtain ⟨h1, h2, h3, h4, h7, h5, h6⟩ := h
    cases hb : leftOf s rule i with
    | true =>
      have := ihl (rowsOk_filter hr h3) (fun j hj => hpm j (List.mem_filter.mp hj).1) h5 i (List.mem_filter.mpr ⟨hi, hb⟩)
      rw [List.filter_filter] at this
      have e : idx.filter (fun j => decide (path s j (TreeNode.ofTrain (.branch rule left right c w l n))
          = path s i (TreeNode.ofTrain (.branch rule left right c w l n)))) =
          idx.filter (fun j => decide (path s j (TreeNode.ofTrain left) = path s i (TreeNode.ofTrain left)) && leftOf s rule j) := by
        apply List.filter_congr
        intro j _
        simp only [TreeNode.ofTrain, path_branch, hb, if_true]
        cases hj : leftOf s rule j <;> simp
      rw [e]
      simpa only [TreeNode.ofTrain, evalAt, hb, if_true] using this
    | false =>
      have := ihr (rowsOk_filter hr h4) (fun j hj => hpm j (List.mem_filter.mp hj).1) h6 i (List.mem_filter.mpr ⟨hi, by simp [hb]⟩)
      rw [List.filter_filter] at this
      have e : idx.filter (fun j => decide (path s j (TreeNode.ofTrain (.branch rule left right c w l n))
          = path s i (TreeNode.ofTrain (.branch rule left right c w l n)))) =
          idx.filter (fun j => decide (path s j (TreeNode.ofTrain right) = path s i (TreeNode.ofTrain right)) && !leftOf s rule j) := by
        apply List.filter_congr
        intro j _
        simp only [TreeNode.ofTrain, path_branch, hb, Bool.false_eq_true, if_false]
        cases hj : leftOf s rule j <;> simp
      rw [e]
      simpa only [TreeNode.ofTrain, evalAt, hb, Bool.false_eq_true, if_false] using this

/-- The edge of a tree on some rows. -/
def treeEdge (s : Sample K) (dist : List K) (idx : List Nat) (t : TreeNode K) : K :=
  (idx.map (fun i => dist.getD i 0 * s.target.getD i 0 * evalAt s i t)).sum

theorem treeEdge_branch (s : Sample K) (dist : List K) (idx : List Nat) (rule : Splitter K) (left right : TreeNode K) :
    treeEdge s dist idx (.branch rule left right) =
      treeEdge s dist (idx.filter (leftOf s rule)) left + treeEdge s dist (idx.filter (fun i => !leftOf s rule i)) right := by
  unfold treeEdge
  rw [← sum_filter_add (leftOf s rule) _ idx]
  congr 2
  · apply List.map_congr_left
    intro i hi
    simp [evalAt, (List.mem_filter.mp hi).2]
  · apply List.map_congr_left
    intro i hi
    have := (List.mem_filter.mp hi).2
    simp only [Bool.not_eq_true'] at this
    simp [evalAt, this]

theorem treeEdge_leaf (s : Sample K) (dist : List K) (idx : List Nat) (c : K) :
    treeEdge s dist idx (.leaf c) = c * labelSum s dist idx := by
  unfold treeEdge labelSum
  induction idx with
  | nil => simp
  | cons i idx ih => simp only [List.map_cons, List.sum_cons, evalAt] at ih ⊢; rw [ih]; ring

theorem two_leaves {A B a b : K} (ha : 0 < a) (hb : 0 < b) : (A + B) ^ 2 / (a + b) ≤ A ^ 2 / a + B ^ 2 / b := by
  rw [div_add_div _ _ ha.ne' hb.ne', div_le_div_iff₀ (add_pos ha hb) (mul_pos ha hb)]
  nlinarith [sq_nonneg (A * b - B * a), mul_pos ha hb]

theorem labelSum_filter (s : Sample K) (dist : List K) (idx : List Nat) (p : Nat → Bool) :
    labelSum s dist (idx.filter p) + labelSum s dist (idx.filter (fun i => !p i)) = labelSum s dist idx :=
  sum_filter_add p _ idx

theorem grown_edge {s : Sample K} {dist : List K} (node : TrainNode K) : ∀ {idx : List Nat}, RowsOk s dist idx →
    (∀ i ∈ idx, s.target.getD i 0 = 1 ∨ s.target.getD i 0 = -1) → Grown s dist idx node →
    labelSum s dist idx ^ 2 / weightOf dist idx ≤ treeEdge s dist idx (TreeNode.ofTrain node) := by
  induction node with
  | leaf c w l =>
    intro idx hr hpm h
    have hpos := weightOf_pos hr.1 (fun i hi => (hr.2 i hi).2)
    have hm := leafOk_mean hr hpm h
    simp only [TreeNode.ofTrain, treeEdge_leaf]
    rw [← hm, div_le_iff₀ hpos]
    apply le_of_eq; ring
  | branch rule left right c w l n ihl ihr =>
    intro idx hr hpm h
    obtain ⟨h1, h2, h3, h4, h7, h5, h6⟩ := h
    have rl := rowsOk_filter hr h3
    have rr := rowsOk_filter hr h4
    have i1 := ihl rl (fun j hj => hpm j (List.mem_filter.mp hj).1) h5
    have i2 := ihr rr (fun j hj => hpm j (List.mem_filter.mp hj).1) h6
    simp only [TreeNode.ofTrain, treeEdge_branch]
    refine le_trans ?_ (add_le_add i1 i2)
    rw [← labelSum_filter s dist idx (leftOf s rule), ← weightOf_filter dist idx (leftOf s rule)]
    exact two_leaves (weightOf_pos rl.1 (fun i hi => (rl.2 i hi).2)) (weightOf_pos rr.1 (fun i hi => (rr.2 i hi).2))

/-! ## Training succeeds -/

theorem fullTree_ok {env : TreeEnv K} {t : DecisionTree K} {s : Sample K} {dist : List K} (ht : TrainOk env t s dist) :
    ∀ (depth : Nat) (idx : List Nat), RowsOk s dist idx → ∃ node, DecisionTree.fullTree env t s dist depth idx = .ok node := by
  intro depth
  induction depth with
  | zero =>
    intro idx hr
    obtain ⟨c, l, e1, e2⟩ := confidenceAndLoss_ok ht.order (s := s) (dist := dist) hr.1
      (fun i hi => ⟨by rw [ht.sample.labels]; exact (hr.2 i hi).1, by rw [ht.weights]; exact (hr.2 i hi).1, (hr.2 i hi).2⟩)
    unfold DecisionTree.fullTree
    rw [sumDist_ok (fun i hi => by rw [ht.weights]; exact (hr.2 i hi).1), e1]
    exact ⟨_, rfl⟩
  | succ depth ih =>
    intro idx hr
    obtain ⟨c, l, e1, e2⟩ := confidenceAndLoss_ok ht.order (s := s) (dist := dist) hr.1
      (fun i hi => ⟨by rw [ht.sample.labels]; exact (hr.2 i hi).1, by rw [ht.weights]; exact (hr.2 i hi).1, (hr.2 i hi).2⟩)
    unfold DecisionTree.fullTree
    rw [sumDist_ok (fun i hi => by rw [ht.weights]; exact (hr.2 i hi).1), e1]
    simp only
    split
    · exact ⟨_, rfl⟩
    · obtain ⟨f, hf, th, b1, _⟩ := bestSplit_ok ht.ext t.criterion ht.sample ht.columns ht.weights hr.1 ht.bins hr.2 ht.values
      rw [b1]
      simp only
      rw [splitRows_ok ht.sample hf th idx (fun i hi => (hr.2 i hi).1)]
      simp only
      split
      · exact ⟨_, rfl⟩
      · rename_i hlr
        rw [not_or] at hlr
        obtain ⟨n1, g1⟩ := ih _ (rowsOk_filter hr hlr.1)
        obtain ⟨n2, g2⟩ := ih _ (rowsOk_filter hr hlr.2)
        rw [g1, g2]
        exact ⟨_, rfl⟩

theorem positiveRows_ok {dist : List K} (idx : List Nat) (h : ∀ i ∈ idx, i < dist.length) :
    DecisionTree.positiveRows dist idx = .ok (idx.filter (fun i => 0 < dist.getD i 0)) := by
  induction idx with
  | nil => rfl
  | cons i idx ih =>
    unfold DecisionTree.positiveRows
    rw [vecAt_ok (h i (by simp)) 0, ih (fun j hj => h j (List.mem_cons_of_mem _ hj))]
    simp only [Except.map, List.filter_cons]
    by_cases hp : 0 < dist.getD i 0 <;> simp [hp]

theorem rowsOk_train {s : Sample K} {dist : List K} (h : ∃ i < s.nSample, 0 < dist.getD i 0) : RowsOk s dist (trainRows s dist) := by
  obtain ⟨i, hi, hp⟩ := h
  refine ⟨?_, ?_⟩
  · intro he
    have : i ∈ trainRows s dist := by simp only [trainRows, List.mem_filter, List.mem_range, decide_eq_true_eq]; exact ⟨hi, hp⟩
    rw [he] at this; cases this
  · intro j hj
    simpa only [trainRows, List.mem_filter, List.mem_range, decide_eq_true_eq] using hj

/-- A trained tree is the unpruned tree grown on the rows of positive weight. -/
theorem produce_grown {env : TreeEnv K} (horder : ∀ m, (env.order m).Perm m) {t : DecisionTree K} {s : Sample K} (hs : SampleOk s)
    {dist : List K} (hd : dist.length = s.nSample) {tree : TreeNode K} (h : t.produce env s dist = .ok tree) :
    ∃ node, DecisionTree.fullTree env t s dist t.maxDepth (trainRows s dist) = .ok node ∧ RowsOk s dist (trainRows s dist) ∧
      Grown s dist (trainRows s dist) node ∧ tree = TreeNode.ofTrain node := by
  unfold DecisionTree.produce at h
  rw [positiveRows_ok (List.range s.nSample) (fun i hi => by rw [hd]; exact List.mem_range.mp hi)] at h
  simp only at h
  split at h
  · cases h
  · rename_i hne
    have hr : RowsOk s dist (trainRows s dist) := by
      refine ⟨hne, fun j hj => ?_⟩
      simpa only [trainRows, List.mem_filter, List.mem_range, decide_eq_true_eq] using hj
    change (match DecisionTree.fullTree env t s dist t.maxDepth (trainRows s dist) with
      | .error e => Except.error e
      | .ok tree => Except.ok (TreeNode.ofTrain tree.removeRedundant)) = Except.ok tree at h
    cases hf : DecisionTree.fullTree env t s dist t.maxDepth (trainRows s dist) with
    | error e => rw [hf] at h; cases h
    | ok node =>
      rw [hf] at h
      simp only [Except.ok.injEq] at h
      have hg := fullTree_grown horder hs hd _ _ _ hr hf
      exact ⟨node, rfl, hr, hg, by rw [← h, removeRedundant_id node hr hg]⟩

end Miniboosts
