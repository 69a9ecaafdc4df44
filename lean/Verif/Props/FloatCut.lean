import Verif.Lemmas.FloatCut
import Verif.Props.Bins
import Verif.Spec.Float

/-! # Building a tree learner in `f64` (C93)

In exact arithmetic building a tree learner panics only when bins narrower than `10⁻⁹` are asked for (C72).  In `f64` the loop that cuts a
column may make one bin too many (a panic), no bin at all (a panic), or never come to an end. -/

namespace Miniboosts.Props

open Miniboosts Spec F64

/-! ## Columns of moderate size -/

/-- C93, one column: if the values are at most `M` in absolute value, `(n + 8) · M ≤ 2²¹`, and the bins are at least `3 · 10⁻⁹` wide (or there
is only one), then whatever the rounding the loop comes to an end after `n` rounds, with `n` bins which tile the whole range and whose inner
boundaries are doubles of moderate size. -/
theorem cut_f64_partial {rows : ℕ} (hr : 0 < rows) {f : Feature ℝ} (hf : ColumnOk rows f) {M : ℝ} (hM : 1 ≤ M)
    (hb : ∀ v, ValueOf rows f v → |v| ≤ M) {n : ℕ} (hn0 : 1 ≤ n) (hn : ((n : ℝ) + 8) * M ≤ 2 ^ 21) {lo hi : ℝ} (hlo : IsRange rows f lo hi)
    (hw : n = 1 ∨ 3 / 10 ^ 9 ≤ binWidth lo hi n) :
    ∃ rb : List (Bin ℝ), rb.length = n ∧ Tiles (-maxVal) rb maxVal ∧
      (∀ fuel, n ≤ fuel → FTree.cut fuel f n = some (.ok (rb.map fun b => ⟨fin b.start, fin b.stop⟩))) ∧
      ∀ β ∈ rb, β.stop = maxVal ∨ (Double β.stop ∧ |β.stop| ≤ 10 ^ 9) :=
  FTree.cut_ok hr hf hM hb hn0 hn hlo.1 hlo.2.1 hlo.2.2 hw

/-- C93: under these conditions for every column the learner is built, after as many rounds as there are bins in a column. -/
theorem tree_build_f64_partial (b : DecisionTreeBuilder ℝ) (hs : SampleOk b.sample) (hr : 0 < b.sample.nSample) (N : ℕ)
    (hn : ∀ f ∈ b.sample.features, ∃ n lo hi M, HMap.get? b.nBins f.name = some n ∧ 1 ≤ n ∧ n ≤ N ∧ IsRange b.sample.nSample f lo hi ∧ 1 ≤ M ∧
      (∀ v, ValueOf b.sample.nSample f v → |v| ≤ M) ∧ ((n : ℝ) + 8) * M ≤ 2 ^ 21 ∧ (n = 1 ∨ 3 / 10 ^ 9 ≤ binWidth lo hi n)) :
    ∃ t : FTree.Tree, (∀ fuel, N ≤ fuel → FTree.build fuel b = some (.ok t)) ∧ t.criterion = b.criterion ∧ t.maxDepth = b.maxDepth ∧
      ∀ f ∈ b.sample.features, ∃ rb : List (Bin ℝ), HMap.get? t.bins f.name = some (rb.map fun b => ⟨fin b.start, fin b.stop⟩) ∧
        some rb.length = HMap.get? b.nBins f.name ∧ Tiles (-maxVal) rb maxVal ∧ ∀ β ∈ rb, β.stop = maxVal ∨ (Double β.stop ∧ |β.stop| ≤ 10 ^ 9) := by
  have key : ∀ l : List (Feature ℝ), (∀ f ∈ l, f ∈ b.sample.features) → ∃ r, (∀ fuel, N ≤ fuel → FTree.cutAll fuel b.nBins l = some (.ok r)) ∧
      r.map Prod.fst = l.map Feature.name ∧ ∀ f ∈ l, ∃ rb : List (Bin ℝ), (f.name, rb.map fun b => (⟨fin b.start, fin b.stop⟩ : Bin F64)) ∈ r ∧
        some rb.length = HMap.get? b.nBins f.name ∧ Tiles (-maxVal) rb maxVal ∧ ∀ β ∈ rb, β.stop = maxVal ∨ (Double β.stop ∧ |β.stop| ≤ 10 ^ 9) := by
    intro l
    induction l with
    | nil => intro _; exact ⟨[], fun _ _ => rfl, rfl, by simp⟩
    | cons f l ih =>
      intro hl
      obtain ⟨r, r1, r2, r3⟩ := ih (fun g hg => hl g (List.mem_cons_of_mem _ hg))
      obtain ⟨n, lo, hi, M, n1, n2, n3, n4, n5, n6, n7, n8⟩ := hn f (hl f (by simp))
      obtain ⟨rb, c1, c2, c3, c4⟩ := cut_f64_partial hr (hs.columns f (hl f (by simp))) n5 n6 n2 n7 n4 n8
      refine ⟨(f.name, rb.map fun b => ⟨fin b.start, fin b.stop⟩) :: r, ?_, by simp [r2], ?_⟩
      · intro fuel hfuel
        unfold FTree.cutAll
        rw [n1]
        simp only [c3 fuel (by omega), r1 fuel hfuel]
        rfl
      · intro g hg
        rcases List.mem_cons.mp hg with rfl | hg
        · exact ⟨rb, by simp, by rw [n1, c1], c2, c4⟩
        · obtain ⟨rb', d1, d2⟩ := r3 g hg
          exact ⟨rb', List.mem_cons_of_mem _ d1, d2⟩
  obtain ⟨r, r1, r2, r3⟩ := key b.sample.features (fun f hf => hf)
  have hnd : (r.map Prod.fst).Nodup := by rw [r2]; exact hs.names
  refine ⟨⟨HMap.collect r, b.criterion, b.maxDepth⟩, ?_, rfl, rfl, ?_⟩
  · intro fuel hf
    unfold FTree.build
    rw [r1 fuel hf]
    rfl
  · intro f hf
    obtain ⟨bins, d1, d2⟩ := r3 f hf
    refine ⟨bins, ?_, d2⟩
    simp only
    rw [HMap.collect_of_nodup hnd]
    exact HMap.get?_of_nodup hnd d1

/-- The conditions are met by a column with the values `0`, `1`, `5000` and the default number of bins. -/
example : ∃ t : FTree.Tree, ∀ fuel, 3 ≤ fuel → FTree.build fuel
    (DecisionTreeBuilder.new { nameToIndex := [("x", 0)], features := [.dense ⟨"x", [0, 1, 5000]⟩], target := [1, -1, 1], nSample := 3, nFeature := 1 }) =
      some (.ok t) := by
  have hs : SampleOk ({ nameToIndex := [("x", 0)], features := [.dense ⟨"x", [0, 1, 5000]⟩], target := [1, -1, 1], nSample := 3, nFeature := 1 } : Sample ℝ) :=
    ⟨rfl, by simp [Feature.name], rfl, by intro f hf; simp only [List.mem_singleton] at hf; subst hf; rfl, rfl⟩
  have hv : ∀ v : ℝ, ValueOf 3 (.dense ⟨"x", [0, 1, 5000]⟩) v ↔ v ∈ [(0 : ℝ), 1, 5000] := fun v =>
    valueOf_dense (n := 3) (f := ⟨"x", [0, 1, 5000]⟩) rfl v
  obtain ⟨t, h, _⟩ := tree_build_f64_partial (DecisionTreeBuilder.new
      { nameToIndex := [("x", 0)], features := [.dense ⟨"x", [0, 1, 5000]⟩], target := [1, -1, 1], nSample := 3, nFeature := 1 })
    hs (by norm_num [DecisionTreeBuilder.new]) 3 (by
      intro f hf
      have hf' : f ∈ [Feature.dense ⟨"x", [(0 : ℝ), 1, 5000]⟩] := hf
      rw [List.mem_singleton] at hf'
      subst hf'
      have h3 : (DenseFeature.distinctValueCount ⟨"x", [(0 : ℝ), 1, 5000]⟩) = 3 := by
        rw [dense_distinct]
        unfold distinct
        rw [List.toFinset_card_of_nodup]
        · rfl
        · norm_num [List.nodup_cons]
      refine ⟨3, 0, 5000, 5000, ?_, by norm_num, le_rfl, ⟨(hv _).mpr (by simp), (hv _).mpr (by simp), fun v h => ?_⟩, by norm_num,
        fun v h => ?_, by norm_num, Or.inr (by norm_num [binWidth])⟩
      · unfold DecisionTreeBuilder.new
        simp only [List.map_cons, List.map_nil, Feature.name, Feature.distinctValueCount, h3]
        rfl
      · have := (hv v).mp h
        simp only [List.mem_cons, List.not_mem_nil, or_false] at this
        rcases this with rfl | rfl | rfl <;> norm_num
      · have := (hv v).mp h
        simp only [List.mem_cons, List.not_mem_nil, or_false] at this
        rcases this with rfl | rfl | rfl <;> norm_num)
  exact ⟨t, h⟩

/-! ## Three columns for which the learner cannot be built -/

/-- A sample with one column. -/
def oneColumn (vs ys : List ℝ) : Sample ℝ :=
  { nameToIndex := [("x", 0)], features := [.dense ⟨"x", vs⟩], target := ys, nSample := vs.length, nFeature := 1 }

theorem oneColumn_ok {vs ys : List ℝ} (h : ys.length = vs.length) : SampleOk (oneColumn vs ys) where
  count := rfl
  names := by simp [oneColumn, Feature.name]
  table := rfl
  columns := by intro f hf; simp only [oneColumn, List.mem_singleton] at hf; subst hf; rfl
  labels := h

theorem oneColumn_build (fuel : ℕ) (vs ys : List ℝ) :
    FTree.build fuel (DecisionTreeBuilder.new (oneColumn vs ys)) =
      (FTree.cut fuel (.dense ⟨"x", vs⟩) (min (distinct vs) 255)).map fun r =>
        r.map fun bins => ⟨[("x", bins)], .entropy, 2⟩ := by
  have h : (DecisionTreeBuilder.new (oneColumn vs ys)).nBins = [("x", min (distinct vs) 255)] := by
    unfold DecisionTreeBuilder.new oneColumn
    simp only [List.map_cons, List.map_nil, Feature.name, Feature.distinctValueCount, dense_distinct]
    rfl
  unfold FTree.build
  rw [h]
  have hf : (DecisionTreeBuilder.new (oneColumn vs ys)).sample.features = [.dense ⟨"x", vs⟩] := rfl
  rw [hf]
  simp only [FTree.cutAll, Feature.name, HMap.get?, if_true]
  cases FTree.cut fuel (.dense ⟨"x", vs⟩) (min (distinct vs) 255) with
  | none => rfl
  | some r => cases r <;> rfl

theorem not_tol {x : ℝ} (h : 11 / 10 ^ 10 ≤ |x|) : ¬ Lt (F64.abs (fin x)) FTree.numTolerance := by
  obtain ⟨t, ht, ht2⟩ := FTree.tol_eq
  rw [ht]
  show ¬ |x| < t
  rw [abs_le] at ht2
  rw [not_lt]
  linarith

/-- Rounding to a given multiple of the last place. -/
theorem round_lit {x : ℝ} {k e : ℤ} (he : -1074 ≤ e) (h1 : (2 : ℝ) ^ (e + 52) ≤ |x|) (h2 : |x| < 2 ^ (e + 53)) (h : |x / 2 ^ e - k| < 1 / 2) :
    F64.round x = k * 2 ^ e := by
  rw [round_of_log he h1 h2, roundEven_eq_of_lt h]

theorem minMax_two {a b : ℝ} (hab : a ≤ b) (ha : |a| < maxVal) (hb : |b| < maxVal) : FTree.minMax [a, b] = (a, b) := by
  have h1 := abs_lt.mp ha
  have h2 := abs_lt.mp hb
  simp only [FTree.minMax, List.foldl_cons, List.foldl_nil]
  rw [min_eq_right h1.2.le, min_eq_left hab, max_eq_right (le_of_lt (by linarith : -maxVal < a)), max_eq_right hab]

theorem big_lt {x : ℝ} (h : |x| ≤ 10 ^ 20) : |x| < maxVal := h.trans_lt FTree.maxVal_big

/-- C93 is false: with the two values `2⁵³` and `2⁵³ + 2` in a column (two neighbouring `f64`s) the default builder never returns: the loop
that cuts the column into two bins pushes the same bin for ever, since `2⁵³ + 1` is rounded to `2⁵³`. -/
theorem tree_build_hangs :
    SampleOk (oneColumn [2 ^ 53, 2 ^ 53 + 2] [1, -1]) ∧
    ∀ fuel, FTree.build fuel (DecisionTreeBuilder.new (oneColumn [2 ^ 53, 2 ^ 53 + 2] [1, -1])) = none := by
  refine ⟨oneColumn_ok rfl, fun fuel => ?_⟩
  have hd : distinct [(2 : ℝ) ^ 53, 2 ^ 53 + 2] = 2 := by
    unfold distinct
    rw [List.toFinset_cons, List.toFinset_cons, List.toFinset_nil, insert_empty_eq, Finset.card_pair]
    norm_num
  rw [oneColumn_build, hd]
  have hsub : sub (fin ((2 : ℝ) ^ 53 + 2)) (fin (2 ^ 53)) = fin 2 := by
    simp only [sub, neg, add]
    rw [show (2 : ℝ) ^ 53 + 2 + -2 ^ 53 = ((1 : ℤ) : ℝ) * 2 ^ (1 : ℤ) by norm_num, rnd_small (by norm_num), round_exact (by norm_num) (by norm_num)]
    norm_num
  have hdiv : div (fin 2) (ofInt 2) = fin 1 := by
    have : ofInt 2 = fin 2 := FTree.ofInt_nat (n := 2) (by norm_num)
    rw [this]
    simp only [div]
    rw [if_neg (by norm_num), show (2 : ℝ) / 2 = 1 by norm_num, rnd_small (by norm_num), round_one]
  have hadd : add (fin ((2 : ℝ) ^ 53)) (fin 1) = fin (2 ^ 53) := by
    simp only [add]
    rw [rnd_small (by norm_num), round_of_log (e := 1) (by norm_num) (by norm_num) (by norm_num),
      roundEven_tie (k := 2 ^ 52) _ (by norm_num), if_pos (by decide)]
    norm_num
  have hsub2 : sub (fin ((2 : ℝ) ^ 53)) (fin (2 ^ 53 + 2)) = fin (-2) := by
    simp only [sub, neg, add]
    rw [show (2 : ℝ) ^ 53 + -(2 ^ 53 + 2) = ((-1 : ℤ) : ℝ) * 2 ^ (1 : ℤ) by norm_num, rnd_small (by norm_num), round_exact (by norm_num) (by norm_num)]
    norm_num
  have hloop : ∀ fuel, FTree.cutLoop (fin ((2 : ℝ) ^ 53 + 2)) (fin 1) fuel (fin (2 ^ 53)) = none := by
    intro fuel
    induction fuel with
    | zero => rfl
    | succ fuel ih =>
      rw [FTree.cutLoop_next (show Lt (fin _) (fin _) from (by norm_num : (2 : ℝ) ^ 53 < 2 ^ 53 + 2)) hadd
        (by rw [hsub2]; exact not_tol (by norm_num)), ih]
      rfl
  rw [FTree.cut_eq]
  have hr : Bins.range FTree.realEnv (Feature.dense ⟨"x", [(2 : ℝ) ^ 53, 2 ^ 53 + 2]⟩) = (2 ^ 53, 2 ^ 53 + 2) :=
    minMax_two (by norm_num) (big_lt (by norm_num)) (big_lt (by norm_num))
  rw [hr]
  unfold FTree.ends FTree.perturb FTree.cutRange
  rw [if_neg (by norm_num)]
  have h2 : ((min 2 255 : ℕ) : ℤ) = 2 := rfl
  simp only [h2, hsub, hdiv, hloop, Option.map_none]

/-- C93 is false: a column that is constantly `2⁵³` makes building panic: `2⁵³ ± 0.001` are both rounded to `2⁵³`, and no bin is cut. -/
theorem tree_build_panics_constant :
    SampleOk (oneColumn [2 ^ 53, 2 ^ 53] [1, -1]) ∧
    ∀ fuel, 0 < fuel → FTree.build fuel (DecisionTreeBuilder.new (oneColumn [2 ^ 53, 2 ^ 53] [1, -1])) = some (.error .assertion) := by
  refine ⟨oneColumn_ok rfl, fun fuel hfuel => ?_⟩
  obtain ⟨fuel, rfl⟩ : ∃ k, fuel = k + 1 := ⟨fuel - 1, by omega⟩
  have hd : distinct [(2 : ℝ) ^ 53, 2 ^ 53] = 1 := by
    unfold distinct
    simp
  rw [oneColumn_build, hd]
  obtain ⟨e, he, he2⟩ := FTree.eps_eq
  rw [abs_le] at he2
  have hsub : sub (fin ((2 : ℝ) ^ 53)) FTree.eps = fin (2 ^ 53) := by
    rw [he]
    simp only [sub, neg, add]
    have hx : |(2 : ℝ) ^ 53 + -e| = 2 ^ 53 - e := by rw [abs_of_pos (by linarith)]; ring
    rw [rnd_small (by rw [hx]; linarith), round_lit (e := 0) (k := 2 ^ 53) (by norm_num) (by rw [hx]; norm_num; linarith)
      (by rw [hx]; norm_num; linarith) (by rw [abs_lt]; push_cast; norm_num; constructor <;> linarith)]
    norm_num
  have hadd : add (fin ((2 : ℝ) ^ 53)) FTree.eps = fin (2 ^ 53) := by
    rw [he]
    simp only [add]
    have hx : |(2 : ℝ) ^ 53 + e| = 2 ^ 53 + e := abs_of_pos (by linarith)
    rw [rnd_small (by rw [hx]; linarith), round_lit (e := 1) (k := 2 ^ 52) (by norm_num) (by rw [hx]; norm_num; linarith)
      (by rw [hx]; norm_num; linarith) (by rw [abs_lt]; push_cast; norm_num; constructor <;> linarith)]
    norm_num
  rw [FTree.cut_eq]
  have hr : Bins.range FTree.realEnv (Feature.dense ⟨"x", [(2 : ℝ) ^ 53, 2 ^ 53]⟩) = (2 ^ 53, 2 ^ 53) :=
    minMax_two le_rfl (big_lt (by norm_num)) (big_lt (by norm_num))
  rw [hr]
  unfold FTree.ends FTree.perturb FTree.cutRange
  rw [if_pos rfl]
  simp only [hsub, hadd]
  rw [FTree.cutLoop_stop (show ¬ Lt (fin _) (fin _) from lt_irrefl _)]
  rfl

/-- C93 is false: a column with the six values `0, 1, 2, 3, 4, 2²⁴` makes building panic: the sum of six times `2²⁴ / 6` is `2²⁴ - 2⁻²⁹` after
rounding, which is smaller than `2²⁴` by more than the tolerance `10⁻⁹`, so that a seventh bin is cut. -/
theorem tree_build_panics_range :
    SampleOk (oneColumn [0, 1, 2, 3, 4, 2 ^ 24] [1, -1, 1, -1, 1, -1]) ∧
    ∀ fuel, 8 ≤ fuel → FTree.build fuel (DecisionTreeBuilder.new (oneColumn [0, 1, 2, 3, 4, 2 ^ 24] [1, -1, 1, -1, 1, -1])) = some (.error .assertion) := by
  refine ⟨oneColumn_ok rfl, fun fuel hfuel => ?_⟩
  obtain ⟨fuel, rfl⟩ : ∃ k, fuel = k + 8 := ⟨fuel - 8, by omega⟩
  have hd : distinct [(0 : ℝ), 1, 2, 3, 4, 2 ^ 24] = 6 := by
    unfold distinct
    rw [List.toFinset_card_of_nodup]
    · rfl
    · norm_num [List.nodup_cons]
  rw [oneColumn_build, hd]
  have hsub : sub (fin ((2 : ℝ) ^ 24)) (fin 0) = fin (2 ^ 24) := by
    simp only [sub, neg, add]
    rw [show (2 : ℝ) ^ 24 + -0 = ((1 : ℤ) : ℝ) * 2 ^ (24 : ℤ) by norm_num, rnd_small (by norm_num), round_exact (by norm_num) (by norm_num)]
    norm_num
  have hdiv : div (fin ((2 : ℝ) ^ 24)) (ofInt 6) = fin (6004799503160661 / 2 ^ 31) := by
    have : ofInt 6 = fin 6 := FTree.ofInt_nat (n := 6) (by norm_num)
    rw [this]
    simp only [div]
    rw [if_neg (by norm_num), rnd_small (by norm_num), round_lit (e := -31) (k := 6004799503160661) (by norm_num)
      (by norm_num) (by norm_num) (by norm_num)]
    norm_num
  have add1 : add (fin 0) (fin ((6004799503160661 : ℝ) / 2 ^ 31)) = fin (6004799503160661 / 2 ^ 31) := by
    simp only [add]
    rw [rnd_small (by norm_num), round_lit (e := -31) (k := 6004799503160661) (by norm_num) (by norm_num) (by norm_num) (by norm_num)]
    norm_num
  have add2 : add (fin ((6004799503160661 : ℝ) / 2 ^ 31)) (fin ((6004799503160661 : ℝ) / 2 ^ 31)) = fin (6004799503160661 / 2 ^ 30) := by
    simp only [add]
    rw [rnd_small (by norm_num), round_lit (e := -30) (k := 6004799503160661) (by norm_num) (by norm_num) (by norm_num) (by norm_num)]
    norm_num
  have add3 : add (fin ((6004799503160661 : ℝ) / 2 ^ 30)) (fin ((6004799503160661 : ℝ) / 2 ^ 31)) = fin (2 ^ 23) := by
    simp only [add]
    rw [rnd_small (by norm_num), round_of_log (e := -30) (by norm_num) (by norm_num) (by norm_num),
      roundEven_tie (k := 9007199254740991) _ (by norm_num), if_neg (by decide)]
    norm_num
  have add4 : add (fin ((2 : ℝ) ^ 23)) (fin ((6004799503160661 : ℝ) / 2 ^ 31)) = fin (6004799503160661 / 2 ^ 29) := by
    simp only [add]
    rw [rnd_small (by norm_num), round_lit (e := -29) (k := 6004799503160661) (by norm_num) (by norm_num) (by norm_num) (by norm_num)]
    norm_num
  have add5 : add (fin ((6004799503160661 : ℝ) / 2 ^ 29)) (fin ((6004799503160661 : ℝ) / 2 ^ 31)) = fin (7505999378950826 / 2 ^ 29) := by
    simp only [add]
    rw [rnd_small (by norm_num), round_lit (e := -29) (k := 7505999378950826) (by norm_num) (by norm_num) (by norm_num) (by norm_num)]
    norm_num
  have add6 : add (fin ((7505999378950826 : ℝ) / 2 ^ 29)) (fin ((6004799503160661 : ℝ) / 2 ^ 31)) = fin (9007199254740991 / 2 ^ 29) := by
    simp only [add]
    rw [rnd_small (by norm_num), round_lit (e := -29) (k := 9007199254740991) (by norm_num) (by norm_num) (by norm_num) (by norm_num)]
    norm_num
  have add7 : add (fin ((9007199254740991 : ℝ) / 2 ^ 29)) (fin ((6004799503160661 : ℝ) / 2 ^ 31)) = fin (5254199565265578 / 2 ^ 28) := by
    simp only [add]
    rw [rnd_small (by norm_num), round_lit (e := -28) (k := 5254199565265578) (by norm_num) (by norm_num) (by norm_num) (by norm_num)]
    norm_num
  have far : ∀ r : ℝ, |r| ≤ 2 ^ 25 → 15 / 10 ^ 10 ≤ |r - 2 ^ 24| → ¬ Lt (F64.abs (sub (fin r) (fin (2 ^ 24)))) FTree.numTolerance := by
    intro r hr h
    have hr' := abs_le.mp hr
    obtain ⟨d, hd1, hd2⟩ := sub_fin (a := r) (b := 2 ^ 24) |r - 2 ^ 24| (by rw [abs_le]; constructor <;> linarith) le_rfl
    rw [hd1]
    apply not_tol
    have hu := u_small
    have het := eta_tiny
    have h3 : u * |r - 2 ^ 24| ≤ 1 / 100 * |r - 2 ^ 24| := by gcongr; linarith
    have h4 := abs_sub_abs_le_abs_sub (r - 2 ^ 24) d
    rw [abs_sub_comm (r - 2 ^ 24) d] at h4
    have h5 := h4.trans hd2
    clear hd2 h4 hr hr'
    generalize |r - 2 ^ 24| = A at *
    linarith
  rw [FTree.cut_eq]
  have hbig := FTree.maxVal_big
  have hr : Bins.range FTree.realEnv (Feature.dense ⟨"x", [(0 : ℝ), 1, 2, 3, 4, 2 ^ 24]⟩) = (0, 2 ^ 24) := by
    show FTree.minMax _ = _
    simp only [FTree.minMax, List.foldl_cons, List.foldl_nil]
    rw [min_eq_right (a := maxVal) (by linarith), max_eq_right (a := -maxVal) (by linarith)]
    norm_num
  rw [hr]
  unfold FTree.ends FTree.perturb FTree.cutRange
  rw [if_neg (by norm_num)]
  have h6 : ((min 6 255 : ℕ) : ℤ) = 6 := rfl
  simp only [h6, hsub, hdiv]
  rw [FTree.cutLoop_next (show Lt (fin _) (fin _) from (by norm_num : (0 : ℝ) < 2 ^ 24)) add1 (far _ (by norm_num) (by norm_num)),
    FTree.cutLoop_next (show Lt (fin _) (fin _) from (by norm_num : (6004799503160661 : ℝ) / 2 ^ 31 < 2 ^ 24)) add2 (far _ (by norm_num) (by norm_num)),
    FTree.cutLoop_next (show Lt (fin _) (fin _) from (by norm_num : (6004799503160661 : ℝ) / 2 ^ 30 < 2 ^ 24)) add3 (far _ (by norm_num) (by norm_num)),
    FTree.cutLoop_next (show Lt (fin _) (fin _) from (by norm_num : (2 : ℝ) ^ 23 < 2 ^ 24)) add4 (far _ (by norm_num) (by norm_num)),
    FTree.cutLoop_next (show Lt (fin _) (fin _) from (by norm_num : (6004799503160661 : ℝ) / 2 ^ 29 < 2 ^ 24)) add5 (far _ (by norm_num) (by norm_num)),
    FTree.cutLoop_next (show Lt (fin _) (fin _) from (by norm_num : (7505999378950826 : ℝ) / 2 ^ 29 < 2 ^ 24)) add6 (far _ (by norm_num) (by norm_num)),
    FTree.cutLoop_next (show Lt (fin _) (fin _) from (by norm_num : (9007199254740991 : ℝ) / 2 ^ 29 < 2 ^ 24)) add7 (far _ (by norm_num) (by norm_num)),
    FTree.cutLoop_stop (show ¬ Lt (fin _) (fin _) from (by norm_num : ¬ (5254199565265578 : ℝ) / 2 ^ 28 < 2 ^ 24))]
  rfl

end Miniboosts.Props
