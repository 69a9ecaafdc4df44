import Verif.Props.FloatGraphSep
import Verif.Props.FileBoosters

/-! # C110: from a file to a classifier, computed in `f64` -/

namespace Miniboosts.Props

open Miniboosts Spec F64

/-- What the builder has stored for a column. -/
theorem fbuild_bins {fuel : ℕ} {b : DecisionTreeBuilder ℝ} {t : FTree.Tree} (h : FTree.build fuel b = some (.ok t))
    (hn : (b.sample.features.map Feature.name).Nodup) {f : Feature ℝ} (hf : f ∈ b.sample.features) :
    ∃ n bins, HMap.get? b.nBins f.name = some n ∧ FTree.cut fuel f n = some (.ok bins) ∧ HMap.get? t.bins f.name = some bins := by
  have key : ∀ (fs : List (Feature ℝ)) (r : List (String × List (Bin F64))), FTree.cutAll fuel b.nBins fs = some (.ok r) →
      r.map Prod.fst = fs.map Feature.name ∧
        ∀ f ∈ fs, ∃ n bins, HMap.get? b.nBins f.name = some n ∧ FTree.cut fuel f n = some (.ok bins) ∧ (f.name, bins) ∈ r := by
    intro fs
    induction fs with
    | nil =>
      intro r hr
      simp only [FTree.cutAll, Option.some.injEq, Except.ok.injEq] at hr
      subst hr
      exact ⟨rfl, by simp⟩
    | cons g fs ih =>
      intro r hr
      unfold FTree.cutAll at hr
      cases hg : HMap.get? b.nBins g.name with
      | none => rw [hg] at hr; cases hr
      | some n =>
        rw [hg] at hr
        simp only at hr
        cases hc : FTree.cut fuel g n with
        | none => rw [hc] at hr; cases hr
        | some e =>
          rw [hc] at hr
          cases e with
          | error e => cases hr
          | ok bins =>
            simp only at hr
            cases hrest : FTree.cutAll fuel b.nBins fs with
            | none => rw [hrest] at hr; cases hr
            | some e =>
              rw [hrest] at hr
              cases e with
              | error e => cases hr
              | ok rest =>
                simp only [Option.map, Except.map, Option.some.injEq, Except.ok.injEq] at hr
                subst hr
                obtain ⟨i1, i2⟩ := ih rest hrest
                refine ⟨by simp [i1], fun f hf => ?_⟩
                rcases List.mem_cons.mp hf with rfl | hf
                · exact ⟨n, bins, hg, hc, by simp⟩
                · obtain ⟨m, bs, j1, j2, j3⟩ := i2 f hf
                  exact ⟨m, bs, j1, j2, List.mem_cons_of_mem _ j3⟩
  unfold FTree.build at h
  cases hr : FTree.cutAll fuel b.nBins b.sample.features with
  | none => rw [hr] at h; cases h
  | some e =>
    rw [hr] at h
    cases e with
    | error e => cases h
    | ok r =>
      simp only [Option.map, Except.map, Option.some.injEq, Except.ok.injEq] at h
      subst h
      obtain ⟨k1, k2⟩ := key _ r hr
      obtain ⟨n, bins, j1, j2, j3⟩ := k2 f hf
      have hnd : (r.map Prod.fst).Nodup := by rw [k1]; exact hn
      refine ⟨n, bins, j1, j2, ?_⟩
      show HMap.get? (HMap.collect r) f.name = some bins
      rw [HMap.collect_of_nodup hnd]
      exact HMap.get?_of_nodup hnd j3

/-- The first bin of a column from zero to one ends between them. -/
theorem fcut_first {fuel n : ℕ} {f : Feature ℝ} (hr : Bins.range FTree.realEnv f = (0, 1)) (hn : 2 ≤ n) (hn' : n ≤ 255) {bins : List (Bin F64)}
    (h : FTree.cut fuel f n = some (.ok bins)) : ∃ β ∈ bins, ∃ x : ℝ, β.stop = fin x ∧ 0 < x ∧ x ≤ 1 := by
  have hn0 : (2 : ℝ) ≤ n := by exact_mod_cast hn
  have hn1 : (n : ℝ) ≤ 255 := by exact_mod_cast hn'
  obtain ⟨x, hxd⟩ : ∃ x, x = F64.round (1 / (n : ℝ)) := ⟨_, rfl⟩
  have hq : |1 / (n : ℝ)| ≤ 1 := by
    rw [abs_of_nonneg (by positivity), div_le_one (by linarith)]
    linarith
  have hx1 : x ≤ 1 := by
    have := round_le_one hq
    rw [← hxd] at this
    exact (abs_le.mp this).2
  have hx0 : 0 < x := by
    have h1 := round_pos (x := 1 / (n : ℝ)) (by
      have h2 := eta_tiny
      have h3 : (1 / 255 : ℝ) ≤ 1 / n := by gcongr
      norm_num at h2
      linarith)
    rw [← hxd] at h1
    have := eta_pos
    linarith
  have hsub : sub (fin 1) (fin 0) = fin 1 := by
    simp only [sub, neg, add]
    rw [show (1 : ℝ) + -0 = 1 by norm_num]
    exact rnd_double ⟨1, 0, by norm_num, by norm_num, by norm_num⟩ (by norm_num)
  have hdiv : div (fin 1) (ofInt n) = fin x := by
    rw [FTree.ofInt_nat (by linarith)]
    simp only [div]
    rw [if_neg (by linarith), rnd_small (hq.trans (by norm_num)), hxd]
  have hadd : add (fin 0) (fin x) = fin x := by
    simp only [add, zero_add]
    exact rnd_double (hxd ▸ rep_round _) (by rw [abs_of_pos hx0]; exact hx1.trans (by norm_num))
  rw [FTree.cut_eq, hr] at h
  unfold FTree.ends FTree.perturb FTree.cutRange at h
  rw [if_neg (by norm_num)] at h
  simp only [hsub, hdiv] at h
  cases fuel with
  | zero => cases h
  | succ fuel =>
    by_cases ht : Lt (F64.abs (sub (fin x) (fin 1))) FTree.numTolerance
    · rw [FTree.cutLoop_last (show Lt (fin 0) (fin 1) from zero_lt_one) hadd ht] at h
      simp only [Option.map, List.length_singleton] at h
      rw [if_neg (by omega)] at h
      cases h
    · rw [FTree.cutLoop_next (show Lt (fin 0) (fin 1) from zero_lt_one) hadd ht] at h
      cases hl : FTree.cutLoop (fin 1) (fin x) fuel (fin x) with
      | none => rw [hl] at h; cases h
      | some bs =>
        rw [hl] at h
        simp only [Option.map, Option.some.injEq] at h
        by_cases hlen : ((⟨fin 0, fin x⟩ : Bin F64) :: bs).length = n
        · rw [if_pos hlen] at h
          simp only [Except.ok.injEq] at h
          subst h
          cases bs with
          | nil => simp at hlen; omega
          | cons c bs => exact ⟨⟨fin (-maxVal), fin x⟩, by simp [Bins.setLastStop], x, rfl, hx0, hx1⟩
        · rw [if_neg hlen] at h
          cases h

variable {s : Sample ℝ} {θ : ℝ}

/-- The builder of the trees, with its default numbers of bins. -/
noncomputable def fileBuilder (s : Sample ℝ) (c : Criterion) (depth : ℕ) : DecisionTreeBuilder ℝ :=
  { (DecisionTreeBuilder.new s).setCriterion c with maxDepth := depth }

theorem fileBuilder_eq {c : Criterion} {depth : ℕ} (hd : 0 < depth) :
    ((DecisionTreeBuilder.new s).setCriterion c).setMaxDepth depth = .ok (fileBuilder s c depth) := by
  unfold DecisionTreeBuilder.setMaxDepth
  rw [if_pos hd]
  rfl

theorem bool_value (h : BoolSample s θ) {f : Feature ℝ} (hf : f ∈ s.features) {v : ℝ} (hv : ValueOf s.nSample f v) : v = 0 ∨ v = 1 := by
  obtain ⟨i, hi, he⟩ := hv
  rw [index_val_ok (h.ok.columns f hf) hi] at he
  injection he with he
  rw [← he]
  exact h.cells f hf i hi

theorem bool_range (h : BoolSample s θ) {f : Feature ℝ} (hf : f ∈ s.features) :
    IsRange s.nSample f (Bins.range FTree.realEnv f).1 (Bins.range FTree.realEnv f).2 := by
  have hbig := FTree.maxVal_big
  refine range_spec (env := FTree.realEnv) (by simp only [FTree.realEnv]; constructor <;> linarith) (by have := boolSample_rows h; omega) (h.ok.columns f hf) ?_
  intro v hv
  simp only [FTree.realEnv]
  rcases bool_value h hf hv with rfl | rfl <;> constructor <;> linarith

/-- Samples with 0/1 cells meet the conditions of C93-C95. -/
theorem boolSample_float (h : BoolSample s θ) (hn : s.nSample ≤ 10 ^ 5) {c : Criterion} (hc : c ≠ .gini) (depth : ℕ) : FloatTreeData (fileBuilder s c depth) where
  sample := h.ok
  column := h.columns
  rows := by have := boolSample_rows h; exact (by omega : 0 < s.nSample)
  rows_le := hn
  columns := by
    intro f hf
    have hr : 0 < s.nSample := by have := boolSample_rows h; omega
    have hf' : f ∈ s.features := hf
    obtain ⟨n1, n2⟩ := new_builder_bins h.ok hr hf'
    have n3 : min f.distinctValueCount 255 ≤ 255 := min_le_right _ _
    generalize hnd : min f.distinctValueCount 255 = n at n1 n2 n3
    have a : (0 : ℝ) < n := by exact_mod_cast n2
    have a' : (n : ℝ) ≤ 255 := by exact_mod_cast n3
    have hrange := bool_range h hf'
    refine ⟨n, _, _, 1, n1, n2, by omega, hrange, le_rfl, fun v hv => ?_, by norm_num; linarith, .inr ?_⟩
    · rcases bool_value h hf' hv with rfl | rfl <;> norm_num
    · have hle := (hrange.2.2 _ hrange.2.1).1
      unfold binWidth
      rw [le_div_iff₀ a]
      split
      · norm_num; linarith
      · rename_i hne
        have : (Bins.range FTree.realEnv f).2 - (Bins.range FTree.realEnv f).1 = 1 := by
          rcases bool_value h hf' hrange.1 with e | e <;> rcases bool_value h hf' hrange.2.1 with e' | e'
          · exact absurd (e.trans e'.symm) hne
          · rw [e, e']; norm_num
          · rw [e, e'] at hle; norm_num at hle
          · exact absurd (e.trans e'.symm) hne
        rw [this]
        norm_num
        linarith
  criterion := hc
  labels := h.labels
  binary := both_valid h.ok h.labels h.both

/-- A test of the bins that tells the zeros of a column from its ones, up to sign. -/
theorem bool_test (h : BoolSample s θ) {c : Criterion} {depth fuel : ℕ} {t : FTree.Tree} (ht : FTree.build fuel (fileBuilder s c depth) = some (.ok t))
    (htop : ∀ f ∈ s.features, ∀ bins, HMap.get? t.bins f.name = some bins → ∃ β ∈ bins, β.stop = fin maxVal) {f : Feature ℝ} (hf : f ∈ s.features) :
    ∃ (σ x : ℝ), |σ| = 1 ∧ (∃ bins, HMap.get? t.bins f.name = some bins ∧ ∃ β ∈ bins, β.stop = fin x) ∧
      ∀ i < s.nSample, σ * stump f x i = 2 * f.val i - 1 := by
  have hbig := FTree.maxVal_big
  obtain ⟨n, bins, b1, b2, b3⟩ := fbuild_bins ht h.ok.names hf
  have hr : 0 < s.nSample := by have := boolSample_rows h; omega
  have hn : n = min f.distinctValueCount 255 := by
    have := (new_builder_bins h.ok hr hf).1
    have e : HMap.get? (DecisionTreeBuilder.new s).nBins f.name = some n := b1
    rw [e] at this
    exact Option.some.inj this
  have hcol := h.ok.columns f hf
  obtain ⟨β, hβ, hβ'⟩ := htop f hf bins b3
  by_cases hz : ∃ i < s.nSample, f.val i = 0
  · by_cases ho : ∃ j < s.nSample, f.val j = 1
    · obtain ⟨i, hi, ei⟩ := hz
      obtain ⟨j, hj, ej⟩ := ho
      have h2 : 2 ≤ n := by rw [hn]; exact le_min (two_distinct hcol hi hj ei ej) (by norm_num)
      obtain ⟨r1, r2, r3⟩ := bool_range h hf
      have v0 : ValueOf s.nSample f 0 := ⟨i, hi, by rw [index_val_ok hcol hi, ei]⟩
      have v1 : ValueOf s.nSample f 1 := ⟨j, hj, by rw [index_val_ok hcol hj, ej]⟩
      have hrange : Bins.range FTree.realEnv f = (0, 1) := by
        have a1 := (r3 0 v0).1
        have a2 := (r3 1 v1).2
        rw [Prod.ext_iff]
        constructor
        · rcases bool_value h hf r1 with h | h
          · exact h
          · rw [h] at a1; norm_num at a1
        · rcases bool_value h hf r2 with h | h
          · rw [h] at a2; norm_num at a2
          · exact h
      obtain ⟨γ, hγ, x, hx, hx0, hx1⟩ := fcut_first hrange h2 (by rw [hn]; exact min_le_right _ _) b2
      refine ⟨1, x, by norm_num, ⟨bins, b3, γ, hγ, hx⟩, fun k hk => ?_⟩
      unfold stump
      rcases h.cells f hf k hk with e | e
      · rw [e, if_pos hx0]; norm_num
      · rw [e, if_neg (not_lt.2 hx1)]; norm_num
    · push Not at ho
      refine ⟨1, maxVal, by norm_num, ⟨bins, b3, β, hβ, hβ'⟩, fun k hk => ?_⟩
      have : f.val k = 0 := (h.cells f hf k hk).resolve_right (ho k hk)
      unfold stump
      rw [this, if_pos (by linarith)]; norm_num
  · push Not at hz
    refine ⟨-1, maxVal, by norm_num, ⟨bins, b3, β, hβ, hβ'⟩, fun k hk => ?_⟩
    have : f.val k = 1 := (h.cells f hf k hk).resolve_left (hz k hk)
    unfold stump
    rw [this, if_pos (by linarith)]; norm_num

/-- The vote of the columns is a vote over tests of the bins. -/
theorem boolSample_margin (h : BoolSample s θ) (hn : s.nSample ≤ 10 ^ 5) {c : Criterion} (hc : c ≠ .gini) {depth : ℕ} {t : FTree.Tree}
    (ht : FTree.build (10 ^ 5) (fileBuilder s c depth) = some (.ok t)) : TestMargin s t.bins θ := by
  have hbig := FTree.maxVal_big
  have hd := boolSample_float h hn hc depth
  have htop : ∀ f ∈ s.features, ∀ bins, HMap.get? t.bins f.name = some bins → ∃ β ∈ bins, β.stop = fin maxVal := by
    intro f hf bins hbins
    obtain ⟨rb, r1, r2, r3⟩ := (build_fine hd ht).1.ok.bins f hf
    rw [hbins] at r1
    obtain rfl := Option.some.inj r1
    obtain ⟨γ, hγ, e⟩ := tiles_last r3 (by linarith)
    exact ⟨FTree.toF γ, List.mem_map_of_mem hγ, congrArg fin e⟩
  obtain ⟨c0, w, hv1, hv2⟩ := h.vote
  have hst : ∀ f : Feature ℝ, ∃ p : ℝ × ℝ, f ∈ s.features → |p.1| = 1 ∧ (∃ bins, HMap.get? t.bins f.name = some bins ∧ ∃ β ∈ bins, β.stop = fin p.2) ∧
      ∀ i < s.nSample, p.1 * stump f p.2 i = 2 * f.val i - 1 := by
    intro f
    by_cases hf : f ∈ s.features
    · obtain ⟨σ, x, h1⟩ := bool_test h ht htop hf
      exact ⟨(σ, x), fun _ => h1⟩
    · exact ⟨(0, 0), fun h => absurd h hf⟩
  choose p hp using hst
  obtain ⟨g, hg⟩ := List.exists_mem_of_ne_nil _ h.columns
  have hbias : (∃ bins, HMap.get? t.bins g.name = some bins ∧ ∃ β ∈ bins, β.stop = fin maxVal) ∧ ∀ i < s.nSample, stump g maxVal i = -1 := by
    obtain ⟨n, bins, -, -, b3⟩ := fbuild_bins ht h.ok.names hg
    refine ⟨⟨bins, b3, htop g hg bins b3⟩, fun i hi => ?_⟩
    unfold stump
    rw [if_pos]
    rcases h.cells g hg i hi with e | e <;> rw [e] <;> linarith
  refine ⟨(-c0, g, maxVal) :: s.features.map fun f => (w f.name * (p f).1, f, (p f).2), ?_, ?_, ?_⟩
  · intro q hq
    rcases List.mem_cons.1 hq with rfl | hq
    · exact ⟨hg, hbias.1⟩
    · obtain ⟨f, hf, rfl⟩ := List.mem_map.1 hq
      exact ⟨hf, (hp f hf).2.1⟩
  · rw [List.map_cons, List.sum_cons, List.map_map, abs_neg]
    refine le_trans (le_of_eq ?_) hv1
    congr 2
    refine List.map_congr_left fun f hf => ?_
    simp only [Function.comp]
    rw [abs_mul, (hp f hf).1, mul_one]
  · intro i hi
    rw [List.map_cons, List.sum_cons, List.map_map, hbias.2 i hi]
    refine (hv2 i hi).trans (le_of_eq ?_)
    rw [neg_mul_neg, mul_one]
    congr 3
    refine List.map_congr_left fun f hf => ?_
    simp only [Function.comp]
    rw [mul_assoc, (hp f hf).2.2 i hi]

/-- C110: the file is read, the trees' bins are cut in `f64`, and GraphSepBoost in `f64` with trees trained in `f64` (criterion `edge`, any positive depth) returns a
hypothesis that predicts the label of every row of the file, whichever trees the calls of the learner return. -/
theorem file_graphsep_f64 (L : Libm) {parseIx : List Char → Option ℕ} {parse : List Char → Option ℝ} {r : SampleReader} {ys : List ℝ}
    (h : LearnableFile parseIx parse r ys θ) (hθ : 1 / 100 ≤ θ) (hn : ys.length ≤ 10 ^ 5) {depth : ℕ} (hd : 0 < depth) :
    ∃ s b t, SampleReader.read parseIx parse r = .ok s ∧ s.nSample = ys.length ∧
      ((DecisionTreeBuilder.new s).setCriterion .edge).setMaxDepth depth = .ok b ∧ FTree.build (10 ^ 5) b = some (.ok t) ∧
      (∃ wl, FTree.IsLearner L t s wl) ∧ ∀ wl, FTree.IsLearner L t s wl →
        ∃ n f qs, (GraphSepF.booster s.rows).run wl n GraphSepBoost.init = some (.ok (f, qs)) ∧
          (∀ q ∈ qs, ∀ it, FTree.Produce L t s q (some (wl it q))) ∧
          ∀ i < ys.length, (GraphSepF.predict f (s, i) : ℝ) = ys.getD i 0 := by
  obtain ⟨s, e1, e2, e3, e4⟩ := learnableFile_reads h
  have hn' : s.nSample ≤ 10 ^ 5 := by rw [e2]; exact hn
  have hdata := boolSample_float e4 hn' (c := .edge) (by simp) depth
  obtain ⟨t, t1, -⟩ := tree_build_f64_partial (fileBuilder s .edge depth) hdata.sample hdata.rows (10 ^ 5) hdata.columns
  have ht := t1 (10 ^ 5) le_rfl
  refine ⟨s, fileBuilder s .edge depth, t, e1, e2, fileBuilder_eq hd, ht, exists_floatTreeLearner L t s, fun wl hwl => ?_⟩
  obtain ⟨n, f, qs, k1, k2, k3, -⟩ := graphsep_f64_trees L (fileBuilder s .edge depth) hdata rfl hd t ht hθ (boolSample_margin e4 hn' (by simp) ht) wl hwl GraphSepBoost.init
  refine ⟨n, f, qs, k1, k3, fun i hi => ?_⟩
  rw [← e2] at hi
  rw [← e3 i hi]
  exact k2 i hi

/-- So a svmlight file holding the majority of three columns is learned in `f64` with stumps, however `ln` and the sums behave. -/
example (L : Libm) : ∃ r s b t, SampleReader.read exIndices exCells r = .ok s ∧ s.nSample = 5 ∧
    ((DecisionTreeBuilder.new s).setCriterion .edge).setMaxDepth 1 = .ok b ∧ FTree.build (10 ^ 5) b = some (.ok t) ∧
    (∃ wl, FTree.IsLearner L t s wl) ∧ ∀ wl, FTree.IsLearner L t s wl →
      ∃ n f qs, (GraphSepF.booster s.rows).run wl n GraphSepBoost.init = some (.ok (f, qs)) ∧
        ∀ i < 5, (GraphSepF.predict f (s, i) : ℝ) = ([-1, 1, -1, 1, 1] : List ℝ).getD i 0 := by
  obtain ⟨r, h⟩ := exRows_learnable
  obtain ⟨s, b, t, e1, e2, e3, e4, e5, e6⟩ := file_graphsep_f64 L h (by norm_num) (by norm_num) (depth := 1) (by norm_num)
  refine ⟨r, s, b, t, e1, e2, e3, e4, e5, fun wl hwl => ?_⟩
  obtain ⟨n, f, qs, k1, -, k3⟩ := e6 wl hwl
  exact ⟨n, f, qs, k1, k3⟩

end Miniboosts.Props
