import Verif.Props.FloatGini
import Verif.Props.FloatGraphSep

/-! # GraphSepBoost on trees with the criterion Gini in `f64` (C111) -/

namespace Miniboosts

/-- Two learners that answer alike in the rounds that a run reaches give the same run. -/
theorem Booster.run_swap {σ K H O : Type*} (B : Booster σ K H O) (wl wl' : WeakLearner K H) (s₀ : σ) (hpre : B.preprocess s₀ wl = B.preprocess s₀ wl')
    (hb : ∀ n qs s, B.Reachable wl s₀ n qs s → B.boost s wl (n + 1) = B.boost s wl' (n + 1)) (fuel : ℕ) : B.run wl fuel s₀ = B.run wl' fuel s₀ := by
  have key : ∀ fuel n qs s, B.Reachable wl s₀ n qs s → B.loop wl fuel s (n + 1) = B.loop wl' fuel s (n + 1) := by
    intro fuel
    induction fuel with
    | zero => intro n qs s _; rfl
    | succ fuel ih =>
      intro n qs s hr
      rw [Booster.loop, Booster.loop, ← hb n qs s hr]
      cases ho : B.boost s wl (n + 1) with
      | error e => rfl
      | ok out =>
        simp only
        cases hf : out.flow with
        | brk k => rfl
        | cont => simp only; rw [ih _ _ _ (.step hr ho hf)]
  unfold Booster.run
  rw [← hpre]
  cases hp : B.preprocess s₀ wl with
  | error e => rfl
  | ok s => simp only; rw [key fuel 0 [] s (.start hp)]

namespace GraphSepF

open F64

variable {H X : Type*}

theorem run_swap_sim [Classifier H X ℝ] {cf : H → X → F64} (hcf : SameSigns cf) (S : Examples X ℝ) (hS : S.length ≤ 900) (wl wl' : WeakLearner F64 H)
    (h : ∀ it d, (∀ q ∈ d, 0 < F64.val q → 1 / 10 ^ 6 ≤ F64.val q) → wl it d = wl' it d) (fuel : ℕ) (s₀ : GraphSepBoost H) :
    (@booster H X ⟨cf⟩ S).run wl fuel s₀ = (@booster H X ⟨cf⟩ S).run wl' fuel s₀ := by
  have e1 := run_sim hcf (hS.trans (by norm_num)) wl fuel s₀
  have e2 := run_sim hcf (hS.trans (by norm_num)) wl' fuel s₀
  refine e1.trans (Eq.trans ?_ e2.symm)
  congr 1
  refine Booster.run_swap (GraphSepBoost.booster (K := ℝ) S) (rounded wl) (rounded wl') s₀ rfl (fun n qs s hr => ?_) fuel
  show GraphSepBoost.boost (K := ℝ) S s (rounded wl) (n + 1) = GraphSepBoost.boost (K := ℝ) S s (rounded wl') (n + 1)
  have hi := GraphSepBoost.inv_of_reachable hr
  have hcard : ∀ e ∈ s.edges, e.card ≤ 900 := by
    intro e he
    rw [hi.edges] at he
    obtain ⟨i, -, rfl⟩ := List.mem_map.1 he
    classical
    unfold Spec.neighbours
    refine (Finset.card_filter_le _ _).trans ?_
    rw [Finset.card_range]; exact hS
  have hlen : s.edges.length ≤ 900 := by rw [hi.edges]; simpa using hS
  have htotal : s.nEdges ≤ 900 * 900 := by
    have e : s.nEdges = (s.edges.map Finset.card).sum := by
      have := GraphSepBoost.countEdges_eq (Miniboosts.predict (K := ℝ)) S s.hypotheses
      rw [hi.nEdges, ← this, hi.edges]
      rfl
    rw [e]
    refine (List.sum_le_card_nsmul _ 900 ?_).trans ?_
    · simp only [List.mem_map]
      rintro _ ⟨x, hx, rfl⟩
      exact hcard x hx
    · rw [List.length_map, smul_eq_mul]
      exact Nat.mul_le_mul_right _ hlen
  unfold GraphSepBoost.boost
  by_cases h0 : s.nEdges = 0
  · rw [if_pos h0, if_pos h0]
  · have hd : rounded wl (n + 1) (s.edges.map fun e => (e.card : ℝ) / (s.nEdges : ℝ)) = rounded wl' (n + 1) (s.edges.map fun e => (e.card : ℝ) / (s.nEdges : ℝ)) := by
      refine h _ _ fun q hq hpos => ?_
      rw [List.map_map] at hq
      obtain ⟨x, hx, rfl⟩ := List.mem_map.mp hq
      simp only [Function.comp_apply] at hpos ⊢
      have hN0 : (0 : ℝ) < s.nEdges := by exact_mod_cast Nat.pos_of_ne_zero h0
      have hN : (s.nEdges : ℝ) ≤ 810000 := by exact_mod_cast htotal
      have hc : (x.card : ℝ) ≤ s.nEdges := by
        have e : s.nEdges = (s.edges.map Finset.card).sum := by
          have := GraphSepBoost.countEdges_eq (Miniboosts.predict (K := ℝ)) S s.hypotheses
          rw [hi.nEdges, ← this, hi.edges]
          rfl
        rw [e]
        exact_mod_cast List.single_le_sum (by simp) _ (List.mem_map.mpr ⟨x, hx, rfl⟩)
      have hle : (x.card : ℝ) / s.nEdges ≤ 1 := (div_le_one hN0).mpr hc
      have hge : (0 : ℝ) ≤ (x.card : ℝ) / s.nEdges := by positivity
      have hr : rnd ((x.card : ℝ) / s.nEdges) = fin (F64.round ((x.card : ℝ) / s.nEdges)) := F64.rnd_small (by rw [abs_of_nonneg hge]; exact hle.trans (by norm_num))
      rw [hr] at hpos ⊢
      have hx0 : x.card ≠ 0 := by
        intro hx0
        rw [hx0] at hpos
        simp only [Nat.cast_zero, zero_div] at hpos
        rw [F64.round_zero] at hpos
        exact lt_irrefl 0 hpos
      have hx1 : (1 : ℝ) ≤ x.card := by exact_mod_cast Nat.one_le_iff_ne_zero.mpr hx0
      have hlow : (1 : ℝ) / 810000 ≤ (x.card : ℝ) / s.nEdges := by
        rw [div_le_div_iff₀ (by norm_num) hN0]
        nlinarith
      have herr := abs_le.mp (round_err ((x.card : ℝ) / s.nEdges))
      rw [abs_of_nonneg hge] at herr
      have hu := u_small
      have hη := F64.eta_tiny
      have hu0 := u_pos
      show 1 / 10 ^ 6 ≤ F64.round ((x.card : ℝ) / s.nEdges)
      have h3 : u * ((x.card : ℝ) / s.nEdges) ≤ 1 / 9000000000000000 * 1 := mul_le_mul hu hle hge (by norm_num)
      norm_num at herr h3 hlow hη ⊢
      linarith [herr.1]
    rw [if_neg h0, if_neg h0]
    simp only [hd]

/-- On at most `900` examples no weight that GraphSepBoost hands out is positive and below `10⁻⁶`; so two learners that answer alike for such weights give
the same run. -/
theorem run_swap [Classifier H X F64] (S : Examples X ℝ) (hS : S.length ≤ 900) (wl wl' : WeakLearner F64 H)
    (h : ∀ it d, (∀ q ∈ d, 0 < F64.val q → 1 / 10 ^ 6 ≤ F64.val q) → wl it d = wl' it d) (fuel : ℕ) (s₀ : GraphSepBoost H) :
    (booster S).run wl fuel s₀ = (booster S).run wl' fuel s₀ := by
  refine @run_swap_sim H X ⟨fun h x => (predictF h x : ℝ)⟩ conf (fun h x => ?_) S hS wl wl' h fuel s₀
  show (if (0 : ℝ) ≤ ((predictF h x : Int) : ℝ) then 1 else -1) = predictF h x
  unfold predictF
  by_cases hc : Le (fin 0) (conf h x : F64)
  · simp [hc]
  · simp [hc]

end GraphSepF

end Miniboosts

namespace Miniboosts.Props

open Miniboosts Spec F64

/-- The error of a tree's signs, when its edge is at least the square of that of every test up to `ε`. -/
theorem signs_error (L : Libm) (t : FTree.Tree) {s : Sample ℝ} (hs : SampleOk s) (hn : s.nSample ≤ 10 ^ 5) (hy : ∀ y ∈ s.target, y = 1 ∨ y = -1) {θ ε : ℝ} (hθ : 1 / 100 ≤ θ)
    (hε0 : 0 ≤ ε) (hε : ε ≤ 8 / 10 ^ 5) {v : List (ℝ × Feature ℝ × ℝ)} (v2 : (v.map (fun p => |p.1|)).sum ≤ 1)
    (v3 : ∀ i < s.nSample, θ ≤ s.target.getD i 0 * (v.map (fun p => p.1 * stump p.2.1 p.2.2 i)).sum) {d : List ℝ} (hd : d.length = s.nSample) (hp : IsProb d)
    {T : TreeNode F64} (hprod : FTree.Produce L t s (d.map rnd) (some T)) (h2 : ∀ i < s.nSample, ∃ x : ℝ, FTree.confidence s i T = some (fin x) ∧ |x| ≤ 1)
    (hedge : ∀ p ∈ v, 1 / 2 ≤ (d.map F64.round).sum → testEdge s (d.map F64.round) p.2.1 p.2.2 ^ 2 ≤ exactEdge s.rows ((d.map F64.round).map fin) T * (d.map F64.round).sum + ε) :
    weightedError s.rows d (predictF T) ≤ 1 / 2 - (θ ^ 2 - ε - 1 / 10 ^ 5) / 2 := by
  have hθ0 : 0 < θ := by linarith
  obtain ⟨⟨hr, hw⟩, herr⟩ := round_dist hp (hd ▸ hn)
  rw [hd] at hw herr
  rw [hr] at hprod
  set w := d.map F64.round with hwd
  have hpred : ∀ i < s.nSample, (predictF T (s, i) : ℝ) = sgn (FTree.ans s T i) := by
    intro i hi
    obtain ⟨x, hx, -⟩ := h2 i hi
    have e1 : (conf T ((s, i) : Sample ℝ × ℕ) : F64) = fin x := by
      show (FTree.confidence s i T).getD nan = fin x
      rw [hx]
      rfl
    have e2 : FTree.ans s T i = x := by
      unfold FTree.ans
      rw [hx]
      rfl
    unfold predictF
    rw [e1, e2, sgn]
    by_cases h0 : 0 ≤ x
    · rw [if_pos (show Le (fin 0) (fin x) from h0), if_pos h0]; simp
    · rw [if_neg (show ¬ Le (fin 0) (fin x) from h0), if_neg h0]; simp
  rw [error_of_signs hs hy hd hp _ _ hpred]
  have hz : ∀ i, |s.target.getD i 0 * sgn (FTree.ans s T i)| ≤ 1 := by
    intro i
    rw [abs_mul]
    have : |sgn (FTree.ans s T i)| ≤ 1 := by unfold sgn; split <;> simp
    exact mul_le_one₀ (label_abs hy i) (abs_nonneg _) this
  have hdiff := abs_le.mp (herr _ hz)
  have hsig := tree_f64_signs L t s hs hn hy w hw T hprod
  have hsum := herr (fun _ => 1) (fun _ => by simp)
  simp only [mul_one] at hsum
  rw [weights_sum hw.length, weights_sum hd, hp.2] at hsum
  have hsum' := abs_le.mp hsum
  obtain ⟨p, hpv, hpe⟩ := exists_test hθ0 v2 v3 hd hp
  have hE := hedge p hpv (by norm_num at hsum' ⊢; linarith)
  have hst := herr (fun i => s.target.getD i 0 * stump p.2.1 p.2.2 i) fun i => by
    rw [abs_mul]
    exact mul_le_one₀ (label_abs hy i) (abs_nonneg _) (stump_abs _ _ _)
  have hge := testEdge_ge s w p.2.1 p.2.2
  simp only [mul_assoc] at hpe
  have htest : θ - 1 / 10 ^ 10 ≤ testEdge s w p.2.1 p.2.2 := by
    have h3 := abs_sub_abs_le_abs_sub ((List.range s.nSample).map fun i => d.getD i 0 * (s.target.getD i 0 * stump p.2.1 p.2.2 i)).sum
      ((List.range s.nSample).map fun i => w.getD i 0 * (s.target.getD i 0 * stump p.2.1 p.2.2 i)).sum
    rw [abs_sub_comm] at h3
    linarith
  have hsq : (θ - 1 / 10 ^ 10) ^ 2 ≤ testEdge s w p.2.1 p.2.2 ^ 2 := pow_le_pow_left₀ (by norm_num at hθ ⊢; linarith) htest 2
  have hθ1 : θ ≤ 1 := by
    refine hpe.trans ((abs_sum_map _ _).trans ?_)
    rw [← hp.2, ← weights_sum hd]
    apply List.sum_le_sum
    intro i _
    rw [abs_mul, abs_of_nonneg (getD_nonneg hp.1 i)]
    refine mul_le_of_le_one_right (getD_nonneg hp.1 i) ?_
    rw [abs_mul]
    exact mul_le_one₀ (label_abs hy i) (abs_nonneg _) (stump_abs _ _ _)
  set E := exactEdge s.rows (w.map fin) T
  have hE1 : θ ^ 2 - ε - 1 / 10 ^ 6 ≤ E * w.sum := by
    norm_num at hsq hE hθ1 ⊢
    nlinarith
  have hθsq : (1 / 100) ^ 2 ≤ θ ^ 2 := pow_le_pow_left₀ (by norm_num) hθ 2
  have hW0 : 0 < w.sum := by norm_num at hsum' ⊢; linarith
  have hE0 : 0 < E := by
    by_contra hneg
    have : E * w.sum ≤ 0 := mul_nonpos_of_nonpos_of_nonneg (not_lt.mp hneg) hW0.le
    norm_num at hθsq hE1
    linarith
  have hE2 : θ ^ 2 - ε - 2 / 10 ^ 6 ≤ E := by
    by_contra hneg
    push Not at hneg
    have hle : E ≤ 1 := by norm_num at hneg ⊢; nlinarith
    have h5 : E * w.sum ≤ E * (1 + 1 / 10 ^ 10) := mul_le_mul_of_nonneg_left (by linarith) hE0.le
    norm_num at hneg h5 hE1
    linarith
  have h6 : θ ^ 2 - ε - 1 / 10 ^ 5 ≤ ((List.range s.nSample).map fun i => d.getD i 0 * (s.target.getD i 0 * sgn (FTree.ans s T i))).sum := by
    have := hdiff.2
    norm_num at hE2 hsig this ⊢
    linarith
  linarith

open Classical in
/-- C111, with GraphSepBoost: on at most `900` rows GraphSepBoost on trees with the criterion Gini, both in `f64`, never makes training panic and returns, after
at most `2 ln(m)/(θ² - 6·10⁻⁵) + 1` rounds, a hypothesis that predicts every label, when a vote over tests of the bins separates the rows with margin `θ`. -/
theorem graphsep_f64_gini_trees (L : Libm) (b : DecisionTreeBuilder ℝ) (hb : GiniTreeData b) (hrows : b.sample.nSample ≤ 900) (hdep : 1 ≤ b.maxDepth) (t : FTree.Tree)
    (ht : FTree.build (10 ^ 5) b = some (.ok t)) {θ : ℝ} (hθ : 1 / 100 ≤ θ) (hv : TestMargin b.sample t.bins θ) (wl : WeakLearner F64 (TreeNode F64))
    (hwl : FTree.IsLearner L t b.sample wl) (s₀ : GraphSepBoost (TreeNode F64)) :
    ∃ n f qs, (GraphSepF.booster b.sample.rows).run wl n s₀ = some (.ok (f, qs)) ∧
      (∀ i < b.sample.nSample, (GraphSepF.predict f (b.sample, i) : ℝ) = b.sample.target.getD i 0) ∧
      (qs.length : ℝ) ≤ 2 * Real.log b.sample.nSample / (θ ^ 2 - 6 / 10 ^ 5) + 1 := by
  obtain ⟨v, v1, v2, v3⟩ := hv
  have hte := build_setCriterion _ b .edge ht
  obtain ⟨wlE, hwlE⟩ := exists_floatTreeLearner L { t with criterion := .edge } b.sample
  -- the learner that falls back to the criterion `edge` when a weight is tiny
  obtain ⟨wl', hwl'⟩ : ∃ wl' : WeakLearner F64 (TreeNode F64), wl' = fun it d => if ∀ q ∈ d, 0 < F64.val q → 1 / 10 ^ 6 ≤ F64.val q then wl it d else wlE it d := ⟨_, rfl⟩
  have hswap : ∀ fuel, (GraphSepF.booster b.sample.rows).run wl fuel s₀ = (GraphSepF.booster b.sample.rows).run wl' fuel s₀ := by
    intro fuel
    refine GraphSepF.run_swap _ (by rw [floatRows_length]; exact hrows) wl wl' (fun it d hd => ?_) fuel s₀
    rw [hwl']
    exact (if_pos hd).symm
  have hans : ∀ d : List ℝ, d.length = b.sample.nSample → IsProb d → ∀ it,
      weightedError b.sample.rows d (predictF (wl' it (d.map rnd))) ≤ 1 / 2 - (θ ^ 2 - 5 / 10 ^ 5 - 1 / 10 ^ 5) / 2 := by
    intro d hd hp it
    obtain ⟨⟨hr, hw⟩, -⟩ := round_dist hp (hd ▸ hb.data.rows_le)
    rw [hd] at hw
    rw [hwl']
    simp only
    by_cases hbig : ∀ q ∈ d.map rnd, 0 < F64.val q → 1 / 10 ^ 6 ≤ F64.val q
    · rw [if_pos hbig]
      have hbig' : ∀ x ∈ d.map F64.round, 0 < x → 1 / 10 ^ 6 ≤ x := by
        rw [hr] at hbig
        intro x hx h0
        exact hbig (fin x) (List.mem_map_of_mem hx) h0
      obtain ⟨⟨o, ho⟩, hall⟩ := tree_f64_gini_trains L b hb t ht _ hw hbig'
      obtain ⟨tree, rfl, -⟩ := hall o ho
      rw [← hr] at ho hall
      have hprod := hwl it _ ⟨tree, ho⟩
      obtain ⟨tree', h1, h2⟩ := hall _ hprod
      cases h1
      refine signs_error L t hb.data.sample hb.data.rows_le hb.data.labels hθ (by norm_num) (by norm_num) v2 v3 hd hp hprod h2 fun p hpv hW => ?_
      obtain ⟨hf, bins, hbins, β, hβ, hx⟩ := v1 p hpv
      rw [hr] at hprod
      refine (tree_f64_gini L b hb hdep t ht _ hw hW _ hprod p.2.1 hf bins hbins β hβ p.2.2 hx).trans ?_
      rw [← hr]
      show _ ≤ exactEdge b.sample.rows _ _ * _ + _
      norm_num
    · rw [if_neg hbig]
      obtain ⟨t', t1, ⟨o, ho⟩, hall⟩ := tree_f64_trains_partial L (b.setCriterion .edge) hb.data.sample hb.data.column hb.data.rows hb.data.rows_le hb.data.columns
        hb.data.criterion _ hw
      have : t' = { t with criterion := .edge } := by
        have := t1 (10 ^ 5) le_rfl
        rw [hte] at this
        cases this
        rfl
      subst this
      obtain ⟨tree, rfl, -⟩ := hall o ho
      rw [← hr] at ho hall
      have hprod := hwlE it _ ⟨tree, ho⟩
      obtain ⟨tree', h1, h2⟩ := hall _ hprod
      cases h1
      refine signs_error L _ hb.data.sample hb.data.rows_le hb.data.labels hθ (by norm_num) (by norm_num) v2 v3 hd hp hprod h2 fun p hpv hW => ?_
      obtain ⟨hf, bins, hbins, β, hβ, hx⟩ := v1 p hpv
      rw [hr] at hprod
      have h := tree_f64_edge L (b.setCriterion .edge) hb.data rfl hdep _ hte _ hw hW _ hprod p.2.1 hf bins hbins β hβ p.2.2 hx
      change testEdge b.sample _ _ _ ^ 2 ≤ exactEdge b.sample.rows _ _ * _ + _ at h
      rw [← hr] at h ⊢
      exact h.trans (by show exactEdge b.sample.rows _ _ * _ + _ ≤ exactEdge b.sample.rows _ _ * _ + _; norm_num)
  have hg : 0 < (θ ^ 2 - 5 / 10 ^ 5 - 1 / 10 ^ 5) / 2 := by
    have : (1 / 100) ^ 2 ≤ θ ^ 2 := pow_le_pow_left₀ (by norm_num) hθ 2
    norm_num at this ⊢
    linarith
  obtain ⟨n, f, qs, h1, h2, h3, h4⟩ := graphsep_f64 b.sample.rows (by rw [floatRows_length]; exact hb.data.rows_le) (floatRows_binary (b := b.setCriterion .edge) hb.data)
    (floatRows_labels hb.data.sample hb.data.labels) s₀ wl' hg fun k d hd hp => hans d (by rw [hd, floatRows_length]) hp k
  refine ⟨n, f, qs, (hswap n).trans h1, rows_errors_zero h2, ?_⟩
  have e : θ ^ 2 - 5 / 10 ^ 5 - 1 / 10 ^ 5 = θ ^ 2 - 6 / 10 ^ 5 := by ring
  rw [e] at h4 hg
  have hlog : 0 ≤ Real.log (b.sample.nSample : ℝ) := Real.log_nonneg (by exact_mod_cast hb.data.rows)
  rcases h4 with h4 | h4
  · rw [h4]
    have : 0 ≤ 2 * Real.log (b.sample.nSample : ℝ) / (θ ^ 2 - 6 / 10 ^ 5) := div_nonneg (by linarith) (by linarith)
    simp only [List.length_nil, Nat.cast_zero]
    linarith
  · rw [floatRows_length, Real.log_pow, mul_div_cancel₀ _ (two_ne_zero)] at h4
    exact_mod_cast h4

/-- GraphSepBoost on Gini trees for the sample of C94: a learner exists, and every run with such a learner learns the labels. -/
example (L : Libm) : (∃ wl, FTree.IsLearner L ⟨[("x", giniBins)], .gini, 2⟩ giniSample wl) ∧
    ∀ wl, FTree.IsLearner L ⟨[("x", giniBins)], .gini, 2⟩ giniSample wl → ∃ n f qs,
      (GraphSepF.booster giniSample.rows).run wl n GraphSepBoost.init = some (.ok (f, qs)) ∧
      ∀ i < 3, (GraphSepF.predict f (giniSample, i) : ℝ) = giniSample.target.getD i 0 := by
  refine ⟨exists_floatTreeLearner L _ _, fun wl hwl => ?_⟩
  obtain ⟨n, f, qs, h1, h2, -⟩ := graphsep_f64_gini_trees L giniBuilder giniBuilder_data (by show 3 ≤ 900; norm_num) (by decide) _ (giniBuild (by norm_num)) (by norm_num) giniMargin wl hwl
    GraphSepBoost.init
  exact ⟨n, f, qs, h1, h2⟩

end Miniboosts.Props
