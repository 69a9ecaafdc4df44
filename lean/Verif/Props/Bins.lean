import Verif.Props.DecisionTree

set_option linter.unusedSectionVars false

/-! # Histogram bins and the tree builder: C39, C71, C72; worked examples for the decision-tree theorems -/

namespace Miniboosts.Props

open Miniboosts Spec

variable {K : Type*} [Field K] [LinearOrder K] [IsStrictOrderedRing K]

/-! ## Cutting -/

/-- The width of `n` equal bins over a range of values from `lo` to `hi` (widened by `1/1000` on both sides when it is a
single point). -/
def binWidth (lo hi : K) (n : Nat) : K := (if lo = hi then 2 * (1 / 1000) else hi - lo) / n

/-- `lo` and `hi` are the smallest and the largest value of a column with `rows` rows. -/
def IsRange (rows : Nat) (f : Feature K) (lo hi : K) : Prop :=
  ValueOf rows f lo ∧ ValueOf rows f hi ∧ ∀ v, ValueOf rows f v → lo ≤ v ∧ v ≤ hi

theorem width_eq {env : TreeEnv K} (h0 : env.fmin < 0 ∧ 0 < env.fmax) {rows : Nat} (hr : 0 < rows) {f : Feature K}
    (hf : ColumnOk rows f) (hb : ∀ v, ValueOf rows f v → env.fmin + 1 / 1000 < v ∧ v + 1 / 1000 < env.fmax) (n : Nat) {lo hi : K}
    (hlo : IsRange rows f lo hi) : Bins.width env f n = binWidth lo hi n := by
  obtain ⟨r1, r2, r3⟩ := range_spec h0 hr hf (env := env) (fun v hv => by
    have := hb v hv
    constructor <;> linarith [this.1, this.2])
  have e1 : (Bins.range env f).1 = lo := le_antisymm (r3 lo hlo.1).1 (hlo.2.2 _ r1).1
  have e2 : (Bins.range env f).2 = hi := le_antisymm (hlo.2.2 _ r2).2 (r3 hi hlo.2.1).2
  unfold Bins.width Bins.perturb binWidth
  rw [e1, e2]
  by_cases h : lo = hi
  · simp only [h, if_true, Bins.eps]
    congr 1; ring
  · simp only [h, if_false]
    rw [e1, e2]

/-- C39: the bins of a column tile the whole range: the first starts at the smallest number, each starts where the previous
one ends, the last ends at the largest number, and there are as many as asked for; this happens exactly when one bin is
asked for or the bins are at least `10⁻⁹` wide, and otherwise cutting panics. -/
theorem cut_tiles {env : TreeEnv K} (h0 : env.fmin < 0 ∧ 0 < env.fmax) {rows : Nat} (hr : 0 < rows) {f : Feature K}
    (hf : ColumnOk rows f) (hb : ∀ v, ValueOf rows f v → env.fmin + 1 / 1000 < v ∧ v + 1 / 1000 < env.fmax) {n : Nat} (hn : 0 < n)
    {lo hi : K} (hlo : IsRange rows f lo hi) :
    (n = 1 ∨ 1 / 10 ^ 9 ≤ binWidth lo hi n → ∃ bins, Bins.cut env f n = .ok bins ∧ bins.length = n ∧ Tiles env.fmin bins env.fmax) ∧
    (¬ (n = 1 ∨ 1 / 10 ^ 9 ≤ binWidth lo hi n) → Bins.cut env f n = .error .assertion) := by
  have := cut_spec h0 hr hf hb hn
  rw [width_eq h0 hr hf hb n hlo] at this
  exact this

/-- C39: of bins that tile a range, exactly one contains a given value of the range. -/
theorem value_in_one_bin {a z : K} {bins : List (Bin K)} (h : Tiles a bins z) {x : K} (h1 : a ≤ x) (h2 : x < z) :
    ∃ k b, bins[k]? = some b ∧ (b.start ≤ x ∧ x < b.stop) ∧
      ∀ (j : Nat) c, bins[j]? = some c → (c.start ≤ x ∧ x < c.stop) → j = k := by
  obtain ⟨b, hb, hc⟩ := tiles_exists h h1 h2
  obtain ⟨k, hk⟩ := List.getElem?_of_mem hb
  exact ⟨k, b, hk, contains_iff.mp hc, fun j c hj hx => tiles_unique h hj hk (contains_iff.mpr hx) hc⟩

variable [FloorRing K]

theorem rep_total {rows : List (Row K)} (pack : List (Bin K × LabelMap K)) : ∀ a, Rep rows a pack →
    (pack.map (fun p => HMap.total p.2)).sum = ∑ y ∈ labels rows, above rows a y := fun a h => weightSum_eq pack a h

theorem rep_cells {rows : List (Row K)} (pack : List (Bin K × LabelMap K)) : ∀ a, Rep rows a pack → ∀ p ∈ pack, ∀ y,
    (HMap.get? p.2 y).getD 0 = (rows.map (fun r => if (p.1.start ≤ r.x ∧ r.x < p.1.stop) ∧ r.lab = y then r.w else 0)).sum := by
  induction pack with
  | nil => intro a _ p hp; cases hp
  | cons q pack ih =>
    intro a h p hp y
    rcases List.mem_cons.mp hp with rfl | hp
    · obtain ⟨h1, h2, h3, _, _⟩ := h
      rw [h3.val y, h1]; rfl
    · exact ih _ h.2.2.2.2 p hp y

/-- The bins of a table, in order, cover the rows without overlap. -/
theorem rep_contiguous {rows : List (Row K)} (pack : List (Bin K × LabelMap K)) : ∀ a, Rep rows a pack →
    ∃ z, Tiles a (pack.map Prod.fst) z ∧ ∀ r ∈ rows, r.x < z := by
  induction pack with
  | nil => intro a h; exact ⟨a, rfl, h⟩
  | cons q pack ih =>
    intro a h
    obtain ⟨z, z1, z2⟩ := ih _ h.2.2.2.2
    exact ⟨z, ⟨h.1, h.2.1, z1⟩, z2⟩

theorem sum_scaled_rows (f : Feature K) (y dist : List K) (idx : List Nat) (W : K) (P : Row K → Prop) [DecidablePred P]
    (hP : ∀ (r : Row K) (w : K), P { r with w := w } ↔ P r) :
    ((scaled W (idx.map (rowOf f y dist))).map (fun r => if P r then r.w else 0)).sum
      = (idx.map (fun i => if P (rowOf f y dist i) then dist.getD i 0 else 0)).sum / W := by
  unfold scaled
  rw [List.map_map, List.map_map]
  induction idx with
  | nil => simp
  | cons i idx ih =>
    simp only [List.map_cons, List.sum_cons, Function.comp_apply] at ih ⊢
    rw [ih, add_div]
    congr 1
    simp only [hP]
    split
    · rfl
    · simp

/-- C39: the table `pack` builds for some rows of positive weight: its bins are contiguous from the smallest number on and
contain every row; the weight it stores for a bin and a label is the share of the rows with that label and a value in
that bin; together the weights sum to one. -/
theorem pack_counts_once {a z : K} (haz : a < z) {bins : List (Bin K)} (ht : Tiles a bins z) {n : Nat} {f : Feature K}
    (hf : ColumnOk n f) {y dist : List K} (hy : y.length = n) (hd : dist.length = n) {idx : List Nat} (hne : idx ≠ [])
    (hidx : ∀ i ∈ idx, i < n ∧ 0 < dist.getD i 0 ∧ a ≤ f.val i ∧ f.val i < z) :
    ∃ table, Bins.pack bins idx f y dist = .ok table ∧
      (∃ z', Tiles a (table.map Prod.fst) z' ∧ ∀ i ∈ idx, f.val i < z') ∧
      (∀ p ∈ table, ∀ lab, (HMap.get? p.2 lab).getD 0 =
        (idx.map (fun i => if (p.1.start ≤ f.val i ∧ f.val i < p.1.stop) ∧ asI32 (y.getD i 0) = lab then dist.getD i 0 else 0)).sum
          / weightOf dist idx) ∧
      (table.map (fun p => (p.2.map Prod.snd).sum)).sum = 1 := by
  obtain ⟨out, e1, e2, _, _⟩ := pack_ok haz ht hf hy hd hne hidx
  have hW := weightOf_pos hne (fun i hi => (hidx i hi).2.1)
  refine ⟨out, e1, ?_, ?_, ?_⟩
  · obtain ⟨z', z1, z2⟩ := rep_contiguous out a e2
    rw [scaled_x (P := fun x => x < z')] at z2
    exact ⟨z', z1, fun i hi => z2 _ (List.mem_map.mpr ⟨i, hi, rfl⟩)⟩
  · intro p hp lab
    rw [rep_cells out a e2 p hp lab]
    exact sum_scaled_rows f y dist idx (weightOf dist idx)
      (fun r => (p.1.start ≤ r.x ∧ r.x < p.1.stop) ∧ r.lab = lab) (fun r w => Iff.rfl)
  · have h1 := rep_total out a e2
    rw [sum_above] at h1
    have h2 := sum_scaled_rows f y dist idx (weightOf dist idx) (fun r => a ≤ r.x) (fun r w => Iff.rfl)
    change (out.map (fun p => HMap.total p.2)).sum = 1
    rw [h1]
    refine h2.trans ?_
    rw [div_eq_one_iff_eq hW.ne']
    unfold weightOf
    congr 1
    apply List.map_congr_left
    intro i hi
    simp only [rowOf, (hidx i hi).2.2.1, if_true]

/-! ## The builder -/

omit [FloorRing K] in
/-- C72: a builder that knows a positive number of bins for every column builds a tree learner whose bins tile the whole range
for every column, unless some column asks for at least two bins of width below `10⁻⁹`; criterion and depth are passed on. -/
theorem build_ok {env : TreeEnv K} (h0 : env.fmin < 0 ∧ 0 < env.fmax) (b : DecisionTreeBuilder K) (hs : SampleOk b.sample)
    (hr : 0 < b.sample.nSample)
    (hb : ∀ f ∈ b.sample.features, ∀ v, ValueOf b.sample.nSample f v → env.fmin + 1 / 1000 < v ∧ v + 1 / 1000 < env.fmax)
    (hn : ∀ f ∈ b.sample.features, ∃ n lo hi, HMap.get? b.nBins f.name = some n ∧ 0 < n ∧ IsRange b.sample.nSample f lo hi ∧
      (n = 1 ∨ 1 / 10 ^ 9 ≤ binWidth lo hi n)) :
    ∃ t, b.build env = .ok t ∧ t.criterion = b.criterion ∧ t.maxDepth = b.maxDepth ∧
      ∀ f ∈ b.sample.features, ∃ bins, HMap.get? t.bins f.name = some bins ∧ some bins.length = HMap.get? b.nBins f.name ∧
        Tiles env.fmin bins env.fmax := by
  have step : ∀ f ∈ b.sample.features, ∃ bins, DecisionTreeBuilder.cutFeature env b f = .ok (f.name, bins) ∧
      some bins.length = HMap.get? b.nBins f.name ∧ Tiles env.fmin bins env.fmax := by
    intro f hf
    obtain ⟨n, lo, hi, n1, n2, n3, n4⟩ := hn f hf
    obtain ⟨bins, c1, c2, c3⟩ := (cut_tiles h0 hr (hs.columns f hf) (hb f hf) n2 n3).1 n4
    refine ⟨bins, ?_, by rw [n1, c2], c3⟩
    unfold DecisionTreeBuilder.cutFeature
    rw [n1]; simp only [c1]; rfl
  have key : ∀ l : List (Feature K), (∀ f ∈ l, f ∈ b.sample.features) → ∃ r, Sample.mapAll (DecisionTreeBuilder.cutFeature env b) l = .ok r ∧
      r.map Prod.fst = l.map Feature.name ∧ ∀ f ∈ l, ∃ bins, (f.name, bins) ∈ r ∧
        some bins.length = HMap.get? b.nBins f.name ∧ Tiles env.fmin bins env.fmax := by
    intro l
    induction l with
    | nil => intro _; exact ⟨[], rfl, rfl, by simp⟩
    | cons f l ih =>
      intro hl
      obtain ⟨r, r1, r2, r3⟩ := ih (fun g hg => hl g (List.mem_cons_of_mem _ hg))
      obtain ⟨bins, c1, c2, c3⟩ := step f (hl f (by simp))
      refine ⟨(f.name, bins) :: r, by unfold Sample.mapAll; rw [c1, r1]; rfl, by simp [r2], ?_⟩
      intro g hg
      rcases List.mem_cons.mp hg with rfl | hg
      · exact ⟨bins, by simp, c2, c3⟩
      · obtain ⟨bins', d1, d2⟩ := r3 g hg
        exact ⟨bins', List.mem_cons_of_mem _ d1, d2⟩
  obtain ⟨r, r1, r2, r3⟩ := key b.sample.features (fun f hf => hf)
  have hnd : (r.map Prod.fst).Nodup := by rw [r2]; exact hs.names
  refine ⟨⟨HMap.collect r, b.criterion, b.maxDepth⟩, ?_, rfl, rfl, ?_⟩
  · unfold DecisionTreeBuilder.build
    rw [r1]
  · intro f hf
    obtain ⟨bins, d1, d2⟩ := r3 f hf
    refine ⟨bins, ?_, d2⟩
    simp only
    rw [HMap.collect_of_nodup hnd]
    exact HMap.get?_of_nodup hnd d1

omit [FloorRing K] in
/-- C72: if some column asks for at least two bins of width below `10⁻⁹`, building the learner panics (unless a column
before it already made it panic). -/
theorem build_panics {env : TreeEnv K} (h0 : env.fmin < 0 ∧ 0 < env.fmax) (b : DecisionTreeBuilder K) (hs : SampleOk b.sample)
    (hr : 0 < b.sample.nSample)
    (hb : ∀ f ∈ b.sample.features, ∀ v, ValueOf b.sample.nSample f v → env.fmin + 1 / 1000 < v ∧ v + 1 / 1000 < env.fmax)
    {f : Feature K} (hf : f ∈ b.sample.features) {n : Nat} {lo hi : K} (hn : HMap.get? b.nBins f.name = some n) (hn2 : 2 ≤ n)
    (hlo : IsRange b.sample.nSample f lo hi) (hw : binWidth lo hi n < 1 / 10 ^ 9) :
    ∃ e, b.build env = .error e := by
  have hc := (cut_tiles h0 hr (hs.columns f hf) (hb f hf) (n := n) (by omega) hlo).2 (by
    rintro (h | h)
    · omega
    · exact absurd h (not_le.mpr hw))
  have hcf : DecisionTreeBuilder.cutFeature env b f = .error .assertion := by
    unfold DecisionTreeBuilder.cutFeature
    rw [hn]; simp only [hc]; rfl
  have key : ∀ l : List (Feature K), f ∈ l → ∃ e, Sample.mapAll (DecisionTreeBuilder.cutFeature env b) l = .error e := by
    intro l
    induction l with
    | nil => intro h; cases h
    | cons g l ih =>
      intro h
      unfold Sample.mapAll
      cases hg : DecisionTreeBuilder.cutFeature env b g with
      | error e => exact ⟨e, rfl⟩
      | ok a =>
        rcases List.mem_cons.mp h with rfl | h
        · rw [hcf] at hg; cases hg
        · obtain ⟨e, he⟩ := ih h
          simp only [he]
          exact ⟨e, rfl⟩
  obtain ⟨e, he⟩ := key _ hf
  refine ⟨e, ?_⟩
  unfold DecisionTreeBuilder.build
  rw [he]

omit [FloorRing K] in
/-- The number of bins a new builder gives to a column: the number of its distinct values, at most 255; at least one. -/
theorem new_builder_bins {s : Sample K} (hs : SampleOk s) (hr : 0 < s.nSample) {f : Feature K} (hf : f ∈ s.features) :
    HMap.get? (DecisionTreeBuilder.new s).nBins f.name = some (min f.distinctValueCount 255) ∧ 0 < min f.distinctValueCount 255 := by
  constructor
  · unfold DecisionTreeBuilder.new
    simp only
    have hnd : ((s.features.map (fun f => (f.name, min f.distinctValueCount 255))).map Prod.fst).Nodup := by
      rw [List.map_map]; exact hs.names
    rw [HMap.collect_of_nodup hnd]
    exact HMap.get?_of_nodup hnd (List.mem_map.mpr ⟨f, hf, rfl⟩)
  · have hpos : 0 < f.distinctValueCount := by
      have hc := hs.columns f hf
      cases f with
      | dense g =>
        have hl : g.sample.length = s.nSample := hc
        show 0 < g.distinctValueCount
        rw [dense_distinct]
        unfold distinct
        rw [Finset.card_pos]
        cases hg : g.sample with
        | nil => rw [hg] at hl; simp at hl; omega
        | cons v l => exact ⟨v, by simp⟩
      | sparse g =>
        show 0 < g.distinctValueCount
        unfold SparseFeature.distinctValueCount
        by_cases hz : g.hasZero = true
        · simp [hz]
        · have : g.sample ≠ [] := by
            intro he
            apply hz
            unfold SparseFeature.hasZero
            rw [he, hc.1]; simpa using hr
          rw [innerDistinct_eq]
          unfold distinct
          have : 0 < ((g.sample.map Prod.snd).toFinset).card := by
            rw [Finset.card_pos]
            cases hg : g.sample with
            | nil => exact absurd hg this
            | cons v l => exact ⟨v.2, by simp⟩
          omega
    omega

omit [FloorRing K] in
/-- Every column has a smallest and a largest value. -/
theorem exists_range {rows : Nat} (hr : 0 < rows) {f : Feature K} (hf : ColumnOk rows f) : ∃ lo hi, IsRange rows f lo hi := by
  have hv : ∀ v, ValueOf rows f v ↔ v ∈ (List.range rows).map f.val := by
    intro v
    unfold ValueOf
    simp only [List.mem_map, List.mem_range]
    constructor
    · rintro ⟨i, hi, h⟩
      rw [Feature.index_val hf hi, Except.ok.injEq] at h
      exact ⟨i, hi, h⟩
    · rintro ⟨i, hi, rfl⟩
      exact ⟨i, hi, Feature.index_val hf hi⟩
  have hne : ((List.range rows).map f.val).toFinset.Nonempty := ⟨f.val 0, by
    rw [List.mem_toFinset, List.mem_map]; exact ⟨0, List.mem_range.mpr hr, rfl⟩⟩
  refine ⟨_, _, (hv _).mpr (List.mem_toFinset.mp (Finset.min'_mem _ hne)), (hv _).mpr (List.mem_toFinset.mp (Finset.max'_mem _ hne)), ?_⟩
  intro v h
  have : v ∈ ((List.range rows).map f.val).toFinset := List.mem_toFinset.mpr ((hv v).mp h)
  exact ⟨Finset.min'_le _ _ this, Finset.le_max' _ _ this⟩

/-- C71 and C72 together: with the default numbers of bins, on a sample whose columns are not too narrow for them, building the
learner and training it succeed for every weighting of the rows. -/
theorem default_tree_trains {env : TreeEnv K} (h0 : env.fmin < 0 ∧ 0 < env.fmax) (horder : ∀ m, (env.order m).Perm m) {s : Sample K}
    (hs : SampleOk s) (hfe : s.features ≠ []) (hr : 0 < s.nSample)
    (hb : ∀ f ∈ s.features, ∀ v, ValueOf s.nSample f v → env.fmin + 1 / 1000 < v ∧ v + 1 / 1000 < env.fmax)
    (hw : ∀ f ∈ s.features, ∀ lo hi, IsRange s.nSample f lo hi →
      (min f.distinctValueCount 255 = 1 ∨ 1 / 10 ^ 9 ≤ binWidth lo hi (min f.distinctValueCount 255)))
    (c : Criterion) {depth : Nat} (hdep : 0 < depth) :
    ∃ b t, ((DecisionTreeBuilder.new s).setCriterion c).setMaxDepth depth = .ok b ∧ b.build env = .ok t ∧
      t.criterion = c ∧ t.maxDepth = depth ∧
      ∀ dist, dist.length = s.nSample → (∃ i < s.nSample, 0 < dist.getD i 0) →
        TrainOk env t s dist ∧ ∃ tree, t.produce env s dist = .ok tree := by
  obtain ⟨t, t1, t2, t3, t4⟩ := build_ok h0 { (DecisionTreeBuilder.new s).setCriterion c with maxDepth := depth } hs hr hb (by
    intro f hf
    obtain ⟨n1, n2⟩ := new_builder_bins hs hr hf
    obtain ⟨lo, hi, hlo⟩ := exists_range hr (hs.columns f hf)
    exact ⟨_, lo, hi, n1, n2, hlo, hw f hf lo hi hlo⟩)
  refine ⟨_, t, ?_, t1, t2, t3, ?_⟩
  · unfold DecisionTreeBuilder.setMaxDepth
    rw [if_pos hdep]
  · intro dist hd hp
    have hok : TrainOk env t s dist := by
      refine ⟨h0.1.trans h0.2, horder, hs, hfe, hd, hp, ?_, ?_⟩
      · intro f hf
        obtain ⟨bins, b1, _, b2⟩ := t4 f hf
        exact ⟨bins, b1, b2⟩
      · intro f hf i hi
        have := hb f hf (f.val i) ⟨i, hi, Feature.index_val (hs.columns f hf) hi⟩
        have he : (0 : K) < 1 / 1000 := by positivity
        constructor <;> linarith [this.1, this.2]
    exact ⟨hok, tree_training_succeeds hok⟩

/-! ## A worked example -/

/-- Four rows, one column. -/
def exTreeSample : Sample ℚ :=
  { nameToIndex := [("x", 0)], features := [.dense ⟨"x", [0, 1, 2, 3]⟩], target := [-1, -1, 1, -1], nSample := 4, nFeature := 1 }

def exEnv : TreeEnv ℚ := ⟨-1000, 1000, fun x => x, fun m => m⟩

def exTree : DecisionTree ℚ :=
  { bins := [("x", [⟨-1000, 3 / 4⟩, ⟨3 / 4, 3 / 2⟩, ⟨3 / 2, 9 / 4⟩, ⟨9 / 4, 1000⟩])], criterion := .gini, maxDepth := 2 }

def exDist : List ℚ := [1 / 4, 1 / 4, 1 / 4, 1 / 4]

theorem exTreeSample_ok : SampleOk exTreeSample := by
  refine ⟨rfl, by simp [exTreeSample, Feature.name], rfl, ?_, rfl⟩
  intro f hf
  simp only [exTreeSample, List.mem_singleton] at hf
  subst hf; rfl

theorem exTree_ok : TrainOk exEnv exTree exTreeSample exDist := by
  refine ⟨by norm_num [exEnv], fun m => List.Perm.refl _, exTreeSample_ok, by simp [exTreeSample], rfl, ⟨0, by simp [exTreeSample], by norm_num [exDist]⟩, ?_, ?_⟩
  · intro f hf
    simp only [exTreeSample, List.mem_singleton] at hf
    subst hf
    refine ⟨_, rfl, ?_⟩
    simp only [Tiles, exEnv]
    norm_num
  · intro f hf i hi
    simp only [exTreeSample, List.mem_singleton] at hf
    subst hf
    have hi' : i < 4 := hi
    interval_cases i <;> norm_num [Feature.val, exEnv]

/-- The default builder cuts exactly the bins of the example: four distinct values, four bins. -/
theorem exTree_build : ((DecisionTreeBuilder.new exTreeSample).setCriterion .gini).build exEnv = .ok exTree := by
  have h : (DecisionTreeBuilder.new exTreeSample).nBins = [("x", 4)] := by
    unfold DecisionTreeBuilder.new exTreeSample
    simp only [List.map_cons, List.map_nil, Feature.name, Feature.distinctValueCount, dense_distinct]
    have : distinct [(0 : ℚ), 1, 2, 3] = 4 := by decide +kernel
    rw [this]; rfl
  have hc : Bins.cut exEnv (Feature.dense ⟨"x", [0, 1, 2, 3]⟩) 4 =
      .ok [⟨-1000, 3 / 4⟩, ⟨3 / 4, 3 / 2⟩, ⟨3 / 2, 9 / 4⟩, ⟨9 / 4, 1000⟩] := by decide +kernel
  have hs : ((DecisionTreeBuilder.new exTreeSample).setCriterion .gini).sample = exTreeSample := rfl
  have hn : ((DecisionTreeBuilder.new exTreeSample).setCriterion .gini).nBins = [("x", 4)] := h
  have hg : HMap.get? [("x", 4)] "x" = some 4 := by decide
  have hcf : DecisionTreeBuilder.cutFeature exEnv ((DecisionTreeBuilder.new exTreeSample).setCriterion .gini)
      (Feature.dense ⟨"x", [0, 1, 2, 3]⟩) = .ok ("x", [⟨-1000, 3 / 4⟩, ⟨3 / 4, 3 / 2⟩, ⟨3 / 2, 9 / 4⟩, ⟨9 / 4, 1000⟩]) := by
    unfold DecisionTreeBuilder.cutFeature
    rw [hn]
    rw [show (Feature.dense ⟨"x", [(0 : ℚ), 1, 2, 3]⟩).name = "x" from rfl, hg]
    simp only [hc]
    rfl
  have hf : exTreeSample.features = [Feature.dense ⟨"x", [0, 1, 2, 3]⟩] := rfl
  unfold DecisionTreeBuilder.build
  rw [hs, hf]
  unfold Sample.mapAll
  rw [hcf]
  rfl

/-- The tree trained on the example separates the third row in two tests. -/
theorem exTree_produce : exTree.produce exEnv exTreeSample exDist =
    .ok (.branch ⟨"x", 3 / 2⟩ (.leaf (-1)) (.branch ⟨"x", 9 / 4⟩ (.leaf 1) (.leaf (-1)))) := by
  decide +kernel

/-- The panic is reachable: rows `0` and `10⁻⁹`, two bins (the default number) of width `10⁻⁹ / 2`. -/
def exNarrow : DecisionTreeBuilder ℚ :=
  { sample := { nameToIndex := [("x", 0)], features := [.dense ⟨"x", [0, 1 / 10 ^ 9]⟩], target := [1, -1], nSample := 2, nFeature := 1 },
    nBins := [("x", 2)], criterion := .entropy, maxDepth := 2 }

example : exNarrow.build exEnv = .error .assertion := by
  have hc : DecisionTreeBuilder.cutFeature exEnv exNarrow (Feature.dense ⟨"x", [0, 1 / 10 ^ 9]⟩) = .error .assertion := by decide +kernel
  have hf : exNarrow.sample.features = [Feature.dense ⟨"x", [0, 1 / 10 ^ 9]⟩] := rfl
  unfold DecisionTreeBuilder.build
  rw [hf]
  unfold Sample.mapAll
  rw [hc]

end Miniboosts.Props
