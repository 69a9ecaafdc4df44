import Verif.Lemmas.FloatRegLeaf
import Verif.Props.FloatTree
import Verif.Spec.FloatRegTree

/-! # Training a regression tree in `f64` (C121)

In exact arithmetic (C42, C73) a regression tree is trained without a panic and, for the squared loss, adding its answers to the predictions
never increases the squared error.  In `f64` a tree is still always returned for the squared loss — even for predictions that are infinite
or not a number —, each answer is the regularised mean of the residuals of its leaf up to a relative `10⁻¹⁰`, and the squared error grows at
most by a factor `1 + 10⁻⁹`.  For the absolute loss without a regulariser training may panic. -/

namespace Miniboosts.Props

open Miniboosts Spec F64

/-! ## The learner is built -/

/-- The columns of the sample are of moderate size: the conditions of C93, with at most `10⁵` bins. -/
def ModerateBins (s : Sample ℝ) (nBins : List (String × ℕ)) : Prop :=
  ∀ f ∈ s.features, ∃ n lo hi M, HMap.get? nBins f.name = some n ∧ 1 ≤ n ∧ n ≤ 10 ^ 5 ∧ IsRange s.nSample f lo hi ∧ 1 ≤ M ∧
    (∀ v, ValueOf s.nSample f v → |v| ≤ M) ∧ ((n : ℝ) + 8) * M ≤ 2 ^ 21 ∧ (n = 1 ∨ 3 / 10 ^ 9 ≤ binWidth lo hi n)

/-- The builder of a decision tree with the same columns and bins. -/
def asFTreeBuilder (b : FReg.Builder) : DecisionTreeBuilder ℝ := ⟨b.sample, b.nBins, 2, .edge⟩

theorem reg_build_f64 (b : FReg.Builder) (hs : SampleOk b.sample) (hn : 0 < b.sample.nSample) (hcol : ModerateBins b.sample b.nBins) {l : GBMLoss} (hl : b.loss = some l) :
    ∃ t : FReg.Tree, (∀ fuel, 10 ^ 5 ≤ fuel → b.build fuel = some (.ok t)) ∧ t.loss = l ∧ t.maxDepth = b.maxDepth ∧ t.lambdaL2 = b.lambdaL2 ∧
      t.nSample = b.sample.nSample ∧
      ∀ f ∈ b.sample.features, ∃ rb : List (Bin ℝ), HMap.get? t.bins f.name = some (rb.map FTree.toF) ∧ some rb.length = HMap.get? b.nBins f.name ∧
        Tiles (-maxVal) rb maxVal := by
  obtain ⟨t, t1, -, -, t4⟩ := tree_build_f64_partial (asFTreeBuilder b) hs hn (10 ^ 5) hcol
  refine ⟨⟨t.bins, b.maxDepth, b.sample.nSample, b.lambdaL2, l⟩, fun fuel hf => ?_, rfl, rfl, rfl, rfl, fun f hf => ?_⟩
  · have h := t1 fuel hf
    unfold FTree.build at h
    unfold FReg.Builder.build
    have hc : FTree.cutAll fuel (asFTreeBuilder b).nBins (asFTreeBuilder b).sample.features = FTree.cutAll fuel b.nBins b.sample.features := rfl
    rw [hc] at h
    revert h
    cases FTree.cutAll fuel b.nBins b.sample.features with
    | none => intro h; cases h
    | some r =>
      cases r with
      | error e => intro h; cases h
      | ok bins =>
        intro h
        cases h
        rw [hl]
        rfl
  · obtain ⟨rb, r1, r2, r3, -⟩ := t4 f hf
    exact ⟨rb, r1, r2, r3⟩

theorem reg_bins_ok {b : FReg.Builder} (hs : SampleOk b.sample) (hf : b.sample.features ≠ []) (hcol : ModerateBins b.sample b.nBins) {bins : List (String × List (Bin F64))}
    (hb : ∀ f ∈ b.sample.features, ∃ rb : List (Bin ℝ), HMap.get? bins f.name = some (rb.map FTree.toF) ∧ some rb.length = HMap.get? b.nBins f.name ∧
      Tiles (-maxVal) rb maxVal) : FReg.BinsOk bins b.sample := by
  refine ⟨hs, hf, fun f hf i hi => ?_, fun f hf => ?_⟩
  · obtain ⟨n, lo, hi', M, h1, h2, h3, h4, h5, h6, h7, h8⟩ := hcol f hf
    have hM : M ≤ 2 ^ 21 := by
      have : (0 : ℝ) ≤ n := Nat.cast_nonneg n
      nlinarith
    exact big_lt ((h6 _ ⟨i, hi, Feature.index_val (hs.columns f hf) hi⟩).trans (hM.trans (by norm_num)))
  · obtain ⟨rb, r1, r2, r3⟩ := hb f hf
    exact ⟨rb, r1, r3⟩

/-! ## Gradients -/

theorem gradient_entries {l : GBMLoss} {s : Sample ℝ} (hs : SampleOk s) {p : List F64} (hp : p.length = s.nSample) :
    (∃ g, FReg.Gradient l p s.target (some g)) ∧ ∀ o, FReg.Gradient l p s.target o → ∃ g, o = some g ∧ g.length = s.nSample ∧
      ∀ i < s.nSample, FReg.GradAt l (p.getD i nan) (s.target.getD i 0) (g.getD i nan) := by
  have hlen : p.length = s.target.length := by rw [hp, hs.labels]
  have hsig : ∀ q : F64 × ℝ, ∃ r, FReg.GradAt l q.1 q.2 r := by
    intro q
    cases l with
    | L2 => exact ⟨_, rfl⟩
    | L1 =>
      show ∃ r, FReg.Signum (sub (fin q.2) q.1) r
      cases h : sub (fin q.2) q.1 with
      | nan => exact ⟨nan, rfl⟩
      | inf s => exact ⟨_, rfl⟩
      | fin x =>
        rcases le_total 0 x with h | h
        · exact ⟨_, Or.inl ⟨h, rfl⟩⟩
        · exact ⟨_, Or.inr ⟨h, rfl⟩⟩
  unfold FReg.Gradient
  simp only [if_pos hlen]
  constructor
  · choose f hf using hsig
    refine ⟨(p.zip s.target).map f, _, ?_, rfl⟩
    rw [List.forall₂_map_right_iff]
    exact List.forall₂_same.mpr fun q _ => hf q
  · rintro o ⟨g, hg, rfl⟩
    have hgl : g.length = s.nSample := by rw [← hg.length_eq, List.length_zip, ← hlen, hp, min_self]
    refine ⟨g, rfl, hgl, fun i hi => ?_⟩
    have h1 : i < (p.zip s.target).length := by rw [List.length_zip, ← hlen, hp, min_self]; exact hi
    have h2 : i < g.length := by rw [hgl]; exact hi
    have h := (List.forall₂_iff_get.mp hg).2 i h1 h2
    have e1 : p.getD i nan = p[i]'(by omega) := by rw [List.getD_eq_getElem?_getD, List.getElem?_eq_getElem (by omega)]; rfl
    have e2 : s.target.getD i 0 = s.target[i]'(by omega) := by rw [List.getD_eq_getElem?_getD, List.getElem?_eq_getElem (by omega)]; rfl
    have e3 : g.getD i nan = g[i] := by rw [List.getD_eq_getElem?_getD, List.getElem?_eq_getElem h2]; rfl
    rw [e1, e2, e3]
    simpa [List.get_eq_getElem, List.getElem_zip] using h

/-- The second derivative of a loss. -/
noncomputable def hessOf : GBMLoss → F64
  | .L1 => fin 0
  | .L2 => fin 1

theorem hessian_entries {l : GBMLoss} {s : Sample ℝ} (hs : SampleOk s) {p : List F64} (hp : p.length = s.nSample) :
    ∃ h, FReg.hessian l p s.target = some h ∧ h.length = s.nSample ∧ ∀ i < s.nSample, h.getD i nan = hessOf l := by
  unfold FReg.hessian
  rw [if_pos (by rw [hp, hs.labels])]
  refine ⟨_, rfl, by simpa using hp, fun i hi => ?_⟩
  rw [List.getD_eq_getElem?_getD, List.getElem?_replicate, if_pos (by omega)]
  cases l <;> rfl

theorem grad_l1_int {p g : F64} {y : ℝ} (h : FReg.GradAt .L1 p y g) : g = nan ∨ ∃ z : ℤ, |z| ≤ 1 ∧ g = fin (z : ℝ) := by
  change FReg.Signum (sub (fin y) p) g at h
  cases e : sub (fin y) p with
  | nan => rw [e] at h; exact Or.inl h
  | inf s =>
    rw [e] at h
    refine Or.inr ⟨if s then -1 else 1, by cases s <;> simp, ?_⟩
    change g = _ at h
    rw [h]
    cases s <;> simp
  | fin x =>
    rw [e] at h
    rcases h with ⟨-, h⟩ | ⟨-, h⟩
    · exact Or.inr ⟨1, by simp, by rw [h]; simp⟩
    · exact Or.inr ⟨-1, by simp, by rw [h]; simp⟩

/-! ## A tree is returned -/

/-- Whatever is produced is a tree which describes the sample. -/
theorem reg_f64_tree (b : FReg.Builder) (hs : SampleOk b.sample) (hf : b.sample.features ≠ []) (hn : 0 < b.sample.nSample) (hn' : b.sample.nSample < 2 ^ 53)
    (hcol : ModerateBins b.sample b.nBins) {l : GBMLoss} (hl : b.loss = some l)
    (hlam : l = .L2 ∨ (b.lambdaL2 ≠ nan ∧ b.lambdaL2 ≠ fin 0 ∧ ∀ x, b.lambdaL2 = fin x → Double x)) (p : List F64) (hp : p.length = b.sample.nSample) :
    ∃ t : FReg.Tree, (∀ fuel, 10 ^ 5 ≤ fuel → b.build fuel = some (.ok t)) ∧
      (∃ o, FReg.Produce t b.sample p o) ∧
      ∀ o, FReg.Produce t b.sample p o → ∃ g h tree, o = some tree ∧ FReg.Rows b.sample g h (List.range b.sample.nSample) ∧
        (∀ i < b.sample.nSample, FReg.GradAt l (p.getD i nan) (b.sample.target.getD i 0) (g.getD i nan)) ∧
        (∀ i < b.sample.nSample, h.getD i nan = hessOf l) ∧
        FReg.TreeOf b.sample g h b.lambdaL2 (b.maxDepth - 1) tree (List.range b.sample.nSample) := by
  obtain ⟨t, t1, t2, t3, t4, t5, t6⟩ := reg_build_f64 b hs hn hcol hl
  refine ⟨t, t1, ?_⟩
  have hb := reg_bins_ok hs hf hcol t6
  obtain ⟨h, h1, h2, h3⟩ := hessian_entries (l := l) hs hp
  have key : ∀ g : List F64, g.length = b.sample.nSample → (∀ i < b.sample.nSample, FReg.GradAt l (p.getD i nan) (b.sample.target.getD i 0) (g.getD i nan)) →
      FReg.Rows b.sample g h (List.range b.sample.nSample) ∧
      ((∃ o, FReg.FullTree t b.sample g h t.maxDepth (List.range b.sample.nSample) o) ∧
      ∀ o, FReg.FullTree t b.sample g h t.maxDepth (List.range b.sample.nSample) o → ∃ tree, o = some tree ∧
        FReg.TreeOf b.sample g h t.lambdaL2 (t.maxDepth - 1) tree (List.range b.sample.nSample)) := by
    intro g hg1 hg2
    have hrows : FReg.Rows b.sample g h (List.range b.sample.nSample) := ⟨fun i hi => List.mem_range.mp hi, hg1, h2, by rw [List.length_range]; exact hn'⟩
    refine ⟨hrows, FReg.fullTree_ok hb ?_ t.maxDepth _ hrows (by rw [ne_eq, List.range_eq_nil]; omega)⟩
    intro idx hr hne c loss hc hloss
    cases l with
    | L2 => exact FReg.live_l2 hb hr hne h3
    | L1 =>
      obtain ⟨a, e, ha, he, ho⟩ := (FReg.predLoss_iff hr _).mp hc
      refine FReg.live_l1 hb hr (fun i hi => grad_l1_int (hg2 i hi)) ha ?_
      rintro rfl
      apply hloss
      have he0 : e = fin 0 := by
        obtain ⟨sp, hsp, rfl⟩ := he
        have e2 : idx.map (fun i => h.getD i nan) = (List.replicate idx.length (0 : ℤ)).map fun z : ℤ => fin (z : ℝ) := by
          rw [List.map_replicate, List.eq_replicate_iff]
          refine ⟨by simp, fun b hb' => ?_⟩
          obtain ⟨i, hi, rfl⟩ := List.mem_map.mp hb'
          rw [h3 i (hr.row i hi)]
          simp [hessOf]
        rw [FReg.split_int sp _ (hsp.trans e2) (by intro z hz; rw [(List.mem_replicate.mp hz).2]; norm_num) (by simpa using hr.few)]
        simp
      subst he0
      have := congrArg Prod.snd (Option.some.inj ho)
      rw [show loss = _ from this]
      obtain ⟨l1, l2, l3⟩ := hlam.resolve_left (by simp)
      rw [t4]
      have hz : rnd (-(1 / 2) * F64.round (0 * 0)) = fin 0 := by rw [mul_zero, F64.round_zero, mul_zero, rnd_small (by norm_num), F64.round_zero]
      have hz' : mul (fin (-(1 / 2))) (F64.sq (fin 0)) = fin 0 := by
        have : F64.sq (fin 0) = fin (F64.round (0 * 0)) := by
          show rnd (0 * 0) = _
          rw [rnd_small (by norm_num)]
        rw [this]
        exact hz
      show div (mul (fin (-(1 / 2))) (F64.sq (fin 0))) (add (fin 0) b.lambdaL2) = fin 0
      rw [hz']
      cases hlm : b.lambdaL2 with
      | nan => exact absurd hlm l1
      | inf s => rfl
      | fin x =>
        have hx : F64.round (0 + x) = x := by rw [zero_add]; exact round_of_rep (l3 x hlm)
        have hx0 : x ≠ 0 := by rintro rfl; exact l2 hlm
        show div (fin 0) (rnd (0 + x)) = fin 0
        unfold rnd
        rw [hx]
        split
        · rfl
        · show (if x = 0 then _ else rnd (0 / x)) = _
          rw [if_neg hx0, zero_div, rnd_small (by norm_num), F64.round_zero]
  obtain ⟨⟨g, hg⟩, hall⟩ := gradient_entries (l := l) hs hp
  unfold FReg.Produce
  rw [t2]
  constructor
  · obtain ⟨g', e, g1, g2⟩ := hall _ hg
    cases e
    obtain ⟨-, ⟨o, ho⟩, -⟩ := key g g1 g2
    refine ⟨o, some g, hg, ?_⟩
    rw [h1, t5]
    exact ho
  · rintro o ⟨og, hog, ho⟩
    obtain ⟨g', rfl, g1, g2⟩ := hall _ hog
    rw [h1, t5] at ho
    obtain ⟨hrows, -, htree⟩ := key g' g1 g2
    obtain ⟨tree, rfl, h4⟩ := htree o ho
    rw [t3, t4] at h4
    exact ⟨g', h, tree, rfl, hrows, g2, h3, h4⟩

/-- C121: for the squared loss — whatever the regulariser and whatever the predictions, numbers, infinities or NaN — and for the absolute loss
with a regulariser that is a number other than zero, training a regression tree in `f64` on a sample with columns of moderate size always
returns a tree, however the parallel sums are divided and ties are resolved.  No point is tested more than `max_depth - 1` times, and every row
is answered. -/
theorem regression_tree_f64_trains (b : FReg.Builder) (hs : SampleOk b.sample) (hf : b.sample.features ≠ []) (hn : 0 < b.sample.nSample)
    (hn' : b.sample.nSample < 2 ^ 53) (hcol : ModerateBins b.sample b.nBins) {l : GBMLoss} (hl : b.loss = some l)
    (hlam : l = .L2 ∨ (b.lambdaL2 ≠ nan ∧ b.lambdaL2 ≠ fin 0 ∧ ∀ x, b.lambdaL2 = fin x → Double x)) (p : List F64) (hp : p.length = b.sample.nSample) :
    ∃ t : FReg.Tree, (∀ fuel, 10 ^ 5 ≤ fuel → b.build fuel = some (.ok t)) ∧
      (∃ o, FReg.Produce t b.sample p o) ∧
      ∀ o, FReg.Produce t b.sample p o → ∃ tree, o = some tree ∧ (∀ x, (turns x tree).length ≤ b.maxDepth - 1) ∧
        ∀ row < b.sample.nSample, ∃ v, FTree.confidence b.sample row tree = some v := by
  obtain ⟨t, t1, t2, t3⟩ := reg_f64_tree b hs hf hn hn' hcol hl hlam p hp
  refine ⟨t, t1, t2, fun o ho => ?_⟩
  obtain ⟨g, h, tree, rfl, -, -, -, h4⟩ := t3 o ho
  refine ⟨tree, rfl, fun x => h4.turns_le x, fun row hrow => ?_⟩
  obtain ⟨c, -, hc, -⟩ := h4.mates hs (fun i hi => List.mem_range.mp hi) row (List.mem_range.mpr hrow)
  exact ⟨c, hc⟩

/-! ## The squared loss -/

theorem reg_residuals {s : Sample ℝ} (hs : SampleOk s) {p : List ℝ} (hp : p.length = s.nSample) (hpm : ModerateValues p) (hym : ModerateValues s.target) {g h : List F64}
    (hg : ∀ i < s.nSample, FReg.GradAt .L2 ((p.map fin).getD i nan) (s.target.getD i 0) (g.getD i nan)) (hh : ∀ i < s.nSample, h.getD i nan = fin 1) :
    FReg.Residuals s g h (residualAt s p) := by
  have hget : ∀ i < s.nSample, (p.map fin).getD i nan = fin (p.getD i 0) ∧ p.getD i 0 ∈ p ∧ s.target.getD i 0 ∈ s.target := by
    intro i hi
    have h1 : i < p.length := by omega
    have h2 : i < s.target.length := by rw [hs.labels]; exact hi
    simp only [List.getD_eq_getElem?_getD, List.getElem?_map, List.getElem?_eq_getElem h1, List.getElem?_eq_getElem h2]
    exact ⟨rfl, List.getElem_mem h1, List.getElem_mem h2⟩
  have hsm : ∀ i < s.nSample, |residualAt s p i| ≤ 2 * 10 ^ 12 := by
    intro i hi
    obtain ⟨-, h2, h3⟩ := hget i hi
    have h4 := (hpm _ h2).2
    have h5 := (hym _ h3).2
    unfold residualAt
    exact (abs_sub _ _).trans (by linarith)
  refine ⟨fun i hi => ?_, hh, hsm⟩
  obtain ⟨h1, h2, h3⟩ := hget i hi
  have h4 := hg i hi
  rw [h1] at h4
  change g.getD i nan = rnd (p.getD i 0 + -s.target.getD i 0) at h4
  have he : p.getD i 0 + -s.target.getD i 0 = -residualAt s p i := by unfold residualAt; ring
  have hb : |p.getD i 0 + -s.target.getD i 0| ≤ 10 ^ 20 := by
    rw [he, abs_neg]
    exact (hsm i hi).trans (by norm_num)
  rw [rnd_small hb] at h4
  have hneg : F64.Rep (-s.target.getD i 0) := by
    obtain ⟨k, j, k1, k2, k3⟩ := (hym _ h3).1
    exact ⟨-k, j, by rw [abs_neg]; exact k1, k2, by rw [k3]; push_cast; ring⟩
  have h5 := add_rel (hpm _ h2).1 hneg
  refine ⟨_, h4, rep_round _, ?_⟩
  rw [he] at h5 ⊢
  rw [abs_neg, sub_neg_eq_add] at h5
  exact h5

/-- C121: with the squared loss, each answer of a tree trained in `f64` is the regularised mean of the residuals of the rows that share its
leaf — the sum of the residuals divided by their number plus the regulariser —, up to `10⁻¹⁰` of the sum of their absolute values, divided likewise. -/
theorem regression_tree_f64_leaf_values (b : FReg.Builder) (hs : SampleOk b.sample) (hf : b.sample.features ≠ []) (hn : 0 < b.sample.nSample)
    (hn' : b.sample.nSample ≤ 10 ^ 5) (hcol : ModerateBins b.sample b.nBins) (hl : b.loss = some .L2) {lam : ℝ} (hlam : b.lambdaL2 = fin lam) (hlam0 : 0 ≤ lam)
    (hlam1 : ModerateValues [lam]) (hy : ModerateValues b.sample.target) (p : List ℝ) (hp : p.length = b.sample.nSample) (hpm : ModerateValues p) :
    ∃ t : FReg.Tree, (∀ fuel, 10 ^ 5 ≤ fuel → b.build fuel = some (.ok t)) ∧ (∃ o, FReg.Produce t b.sample (p.map fin) o) ∧
      ∀ o, FReg.Produce t b.sample (p.map fin) o → ∃ tree, o = some tree ∧
        ∀ row < b.sample.nSample, ∃ v : ℝ, FTree.confidence b.sample row tree = some (fin v) ∧
          |v - ((leafMates b.sample tree row).map (residualAt b.sample p)).sum / ((leafMates b.sample tree row).length + lam)| ≤
            1 / 10 ^ 10 * (((leafMates b.sample tree row).map fun i => |residualAt b.sample p i|).sum / ((leafMates b.sample tree row).length + lam)) + 1 / 10 ^ 60 := by
  obtain ⟨t, t1, t2, t3⟩ := reg_f64_tree b hs hf hn (by omega) hcol hl (Or.inl rfl) (p.map fin) (by simpa using hp)
  refine ⟨t, t1, t2, fun o ho => ?_⟩
  obtain ⟨g, h, tree, rfl, hrows, hg, hh, h4⟩ := t3 o ho
  refine ⟨tree, rfl, fun row hrow => ?_⟩
  have hres := reg_residuals hs hp hpm hy hg hh
  obtain ⟨c, l, hc, hpl⟩ := h4.mates hs (fun i hi => List.mem_range.mp hi) row (List.mem_range.mpr hrow)
  have hl1 := hlam1 lam (by simp)
  rw [hlam] at hpl
  obtain ⟨v, rfl, hv⟩ := FReg.leaf_l2 hres (hrows.filter _) (List.ne_nil_of_mem (List.mem_filter.mpr ⟨List.mem_range.mpr hrow, by simp⟩))
    ((List.length_filter_le _ _).trans (by rw [List.length_range]; exact hn')) hl1.1 hlam0 ((le_abs_self _).trans hl1.2) hpl
  exact ⟨v, hc, hv⟩

/-- C121: with the squared loss, adding the answers of a tree trained in `f64` to the predictions it was fitted on increases the squared error
at most by a factor `1 + 10⁻⁹` (and `10⁻⁴⁰`). -/
theorem regression_tree_f64_reduces_error (b : FReg.Builder) (hs : SampleOk b.sample) (hf : b.sample.features ≠ []) (hn : 0 < b.sample.nSample)
    (hn' : b.sample.nSample ≤ 10 ^ 5) (hcol : ModerateBins b.sample b.nBins) (hl : b.loss = some .L2) {lam : ℝ} (hlam : b.lambdaL2 = fin lam) (hlam0 : 0 ≤ lam)
    (hlam1 : ModerateValues [lam]) (hy : ModerateValues b.sample.target) (p : List ℝ) (hp : p.length = b.sample.nSample) (hpm : ModerateValues p) :
    ∃ t : FReg.Tree, (∀ fuel, 10 ^ 5 ≤ fuel → b.build fuel = some (.ok t)) ∧ (∃ o, FReg.Produce t b.sample (p.map fin) o) ∧
      ∀ o, FReg.Produce t b.sample (p.map fin) o → ∃ tree, o = some tree ∧
        ∃ v : ℕ → ℝ, (∀ row < b.sample.nSample, FTree.confidence b.sample row tree = some (fin (v row))) ∧
          ((List.range b.sample.nSample).map fun i => (b.sample.target.getD i 0 - (p.getD i 0 + v i)) ^ 2).sum ≤
            (1 + 1 / 10 ^ 9) * ((List.range b.sample.nSample).map fun i => (b.sample.target.getD i 0 - p.getD i 0) ^ 2).sum + 1 / 10 ^ 40 := by
  obtain ⟨t, t1, t2, t3⟩ := reg_f64_tree b hs hf hn (by omega) hcol hl (Or.inl rfl) (p.map fin) (by simpa using hp)
  refine ⟨t, t1, t2, fun o ho => ?_⟩
  obtain ⟨g, h, tree, rfl, hrows, hg, hh, h4⟩ := t3 o ho
  have hres := reg_residuals hs hp hpm hy hg hh
  have hl1 := hlam1 lam (by simp)
  rw [hlam] at h4
  refine ⟨tree, rfl, FTree.ans b.sample tree, fun row hrow => ?_, ?_⟩
  · obtain ⟨c, l, hc, hpl⟩ := h4.mates hs (fun i hi => List.mem_range.mp hi) row (List.mem_range.mpr hrow)
    obtain ⟨v, rfl, hv⟩ := FReg.leaf_l2 hres (hrows.filter _) (List.ne_nil_of_mem (List.mem_filter.mpr ⟨List.mem_range.mpr hrow, by simp⟩))
      ((List.length_filter_le _ _).trans (by rw [List.length_range]; exact hn')) hl1.1 hlam0 ((le_abs_self _).trans hl1.2) hpl
    rw [hc]
    unfold FTree.ans
    rw [hc]
    rfl
  · have he := FReg.TreeOf.error hres hl1.1 hlam0 ((le_abs_self _).trans hl1.2) h4 hrows (by rw [List.length_range]; exact hn')
    have e1 : ((List.range b.sample.nSample).map fun i => (b.sample.target.getD i 0 - (p.getD i 0 + FTree.ans b.sample tree i)) ^ 2).sum =
        FReg.errOn b.sample (residualAt b.sample p) tree (List.range b.sample.nSample) := by
      unfold FReg.errOn residualAt
      congr 1
      exact List.map_congr_left fun i _ => by ring
    rw [e1]
    refine he.trans ?_
    rw [List.length_range]
    have : (b.sample.nSample : ℝ) ≤ 10 ^ 5 := by exact_mod_cast hn'
    have h6 : (b.sample.nSample : ℝ) * (1 / 10 ^ 46) ≤ 10 ^ 5 * (1 / 10 ^ 46) := by gcongr
    have h7 : (10 : ℝ) ^ 5 * (1 / 10 ^ 46) ≤ 1 / 10 ^ 40 := by norm_num
    unfold residualAt at *
    linarith

/-! ## The absolute loss -/

theorem sign_int (x : ℝ) : ∃ z : ℤ, |z| ≤ 1 ∧ (z : ℝ) = Real.sign x := by
  rcases Real.sign_apply_eq x with h | h | h
  · exact ⟨-1, by simp, by rw [h]; simp⟩
  · exact ⟨0, by simp, by rw [h]; simp⟩
  · exact ⟨1, by simp, by rw [h]; simp⟩

theorem grad_l1_sign {p y : ℝ} (hp : Double p ∧ |p| ≤ 10 ^ 12) (hy : Double y ∧ |y| ≤ 10 ^ 12) (hne : y ≠ p) {g : F64} (h : FReg.GradAt .L1 (fin p) y g) :
    g = fin (Real.sign (y - p)) := by
  have hneg : F64.Rep (-p) := by
    obtain ⟨k, j, k1, k2, k3⟩ := hp.1
    exact ⟨-k, j, by rw [abs_neg]; exact k1, k2, by rw [k3]; push_cast; ring⟩
  have h5 := add_rel hy.1 hneg
  rw [← sub_eq_add_neg] at h5
  have hb : |y - p| ≤ 10 ^ 20 := (abs_sub _ _).trans (by linarith [hp.2, hy.2, show (10 : ℝ) ^ 12 + 10 ^ 12 ≤ 10 ^ 20 by norm_num])
  change FReg.Signum (rnd (y + -p)) g at h
  rw [← sub_eq_add_neg, rnd_small hb] at h
  have hu := u_small
  have hu0 := u_pos
  have h6 := abs_le.mp h5
  rcases lt_or_gt_of_ne (sub_ne_zero.mpr hne) with h0 | h0
  · rw [abs_of_neg h0] at h6
    have : F64.round (y - p) < 0 := by nlinarith
    rcases h with ⟨h1, -⟩ | ⟨-, h1⟩
    · linarith
    · rw [h1, Real.sign_of_neg h0]
  · rw [abs_of_pos h0] at h6
    have : 0 < F64.round (y - p) := by nlinarith
    rcases h with ⟨-, h1⟩ | ⟨h1, -⟩
    · rw [h1, Real.sign_of_pos h0]
    · linarith

/-- C121: with the absolute loss, each answer of a tree trained in `f64` is, up to one rounding, the number of rows of its leaf that lie below
their prediction minus the number of those that lie above, divided by the regulariser: the answer points away from the targets, as in exact
arithmetic (C42). -/
theorem regression_tree_f64_l1_leaf_values (b : FReg.Builder) (hs : SampleOk b.sample) (hf : b.sample.features ≠ []) (hn : 0 < b.sample.nSample)
    (hn' : b.sample.nSample < 2 ^ 53) (hcol : ModerateBins b.sample b.nBins) (hl : b.loss = some .L1) {lam : ℝ} (hlam : b.lambdaL2 = fin lam) (hlam0 : 0 < lam)
    (hlam1 : ModerateValues [lam]) (hy : ModerateValues b.sample.target) (p : List ℝ) (hp : p.length = b.sample.nSample) (hpm : ModerateValues p)
    (hne : ∀ i < b.sample.nSample, residualAt b.sample p i ≠ 0) :
    ∃ t : FReg.Tree, (∀ fuel, 10 ^ 5 ≤ fuel → b.build fuel = some (.ok t)) ∧ (∃ o, FReg.Produce t b.sample (p.map fin) o) ∧
      ∀ o, FReg.Produce t b.sample (p.map fin) o → ∃ tree, o = some tree ∧ ∀ row < b.sample.nSample, FTree.confidence b.sample row tree =
        some (rnd (-((leafMates b.sample tree row).map fun i => Real.sign (residualAt b.sample p i)).sum / lam)) := by
  have hl1 := hlam1 lam (by simp)
  obtain ⟨t, t1, t2, t3⟩ := reg_f64_tree b hs hf hn hn' hcol hl (Or.inr ⟨by rw [hlam]; simp, by rw [hlam]; simp [hlam0.ne'], fun x hx => by
    rw [hlam] at hx; cases hx; exact hl1.1⟩) (p.map fin) (by simpa using hp)
  refine ⟨t, t1, t2, fun o ho => ?_⟩
  obtain ⟨g, h, tree, rfl, hrows, hg, hh, h4⟩ := t3 o ho
  refine ⟨tree, rfl, fun row hrow => ?_⟩
  obtain ⟨c, l, hc, hpl⟩ := h4.mates hs (fun i hi => List.mem_range.mp hi) row (List.mem_range.mpr hrow)
  have hgs : ∀ i < b.sample.nSample, g.getD i nan = fin (Real.sign (residualAt b.sample p i)) := by
    intro i hi
    have h1 : i < p.length := by omega
    have h2 : i < b.sample.target.length := by rw [hs.labels]; exact hi
    have e1 : (p.map fin).getD i nan = fin (p.getD i 0) := by
      simp only [List.getD_eq_getElem?_getD, List.getElem?_map, List.getElem?_eq_getElem h1]; rfl
    have m1 : p.getD i 0 ∈ p := by simp only [List.getD_eq_getElem?_getD, List.getElem?_eq_getElem h1]; exact List.getElem_mem h1
    have m2 : b.sample.target.getD i 0 ∈ b.sample.target := by simp only [List.getD_eq_getElem?_getD, List.getElem?_eq_getElem h2]; exact List.getElem_mem h2
    have := hg i hi
    rw [e1] at this
    exact grad_l1_sign (hpm _ m1) (hy _ m2) (sub_ne_zero.mp (hne i hi)) this
  choose z z1 z2 using fun i => sign_int (residualAt b.sample p i)
  rw [hlam] at hpl
  have hr := hrows.filter fun j => open Classical in decide (turns (valueAt b.sample j) tree = turns (valueAt b.sample row) tree)
  obtain ⟨x, y, ⟨sp, hsp, rfl⟩, ⟨sp', hsp', rfl⟩, ho⟩ := (FReg.predLoss_iff hr _).mp hpl
  set idx := (List.range b.sample.nSample).filter fun j => open Classical in decide (turns (valueAt b.sample j) tree = turns (valueAt b.sample row) tree) with hidx
  have e1 : idx.map (fun i => g.getD i nan) = (idx.map z).map fun z : ℤ => fin (z : ℝ) := by
    rw [List.map_map]
    refine List.map_congr_left fun i hi => ?_
    rw [hgs i (hr.row i hi), Function.comp, z2]
  have e2 : idx.map (fun i => h.getD i nan) = (List.replicate idx.length (0 : ℤ)).map fun z : ℤ => fin (z : ℝ) := by
    rw [List.map_replicate, List.eq_replicate_iff]
    refine ⟨by simp, fun b hb' => ?_⟩
    obtain ⟨i, hi, rfl⟩ := List.mem_map.mp hb'
    rw [hh i (hr.row i hi)]
    simp [hessOf]
  rw [FReg.split_int sp _ (hsp.trans e1) (by intro w hw; obtain ⟨i, -, rfl⟩ := List.mem_map.mp hw; exact z1 i) (by simpa using hr.few),
    FReg.split_int sp' _ (hsp'.trans e2) (by intro w hw; rw [(List.mem_replicate.mp hw).2]; norm_num) (by simpa using hr.few)] at ho
  have hc' := congrArg Prod.fst (Option.some.inj ho)
  rw [hc, show c = _ from hc']
  have hlm : add (fin (((List.replicate idx.length (0 : ℤ)).sum : ℤ) : ℝ)) (fin lam) = fin lam := by
    have : (((List.replicate idx.length (0 : ℤ)).sum : ℤ) : ℝ) = 0 := by simp
    rw [this, add, zero_add]
    exact rnd_double hl1.1 (hl1.2.trans (by norm_num))
  have hsum : (((idx.map z).sum : ℤ) : ℝ) = (idx.map fun i => Real.sign (residualAt b.sample p i)).sum := by
    rw [Int.cast_list_sum, List.map_map]
    congr 1
    exact List.map_congr_left fun i _ => z2 i
  show some (div (neg (fin (((idx.map z).sum : ℤ) : ℝ))) (add _ (fin lam))) = _
  rw [hlm, hsum]
  show some (if lam = 0 then _ else rnd _) = _
  rw [if_neg hlam0.ne']
  rfl

/-! ## A panic for the absolute loss without a regulariser -/

/-- Two rows with the same value and the targets `1` and `-1`. -/
def flatSample : Sample ℝ := oneColumn [0, 0] [1, -1]

/-- The learner for the absolute loss without a regulariser. -/
noncomputable def flatBuilder : FReg.Builder := ((FReg.Builder.new flatSample).setLoss .L1).setLambda (fin 0)

theorem flat_bins : flatBuilder.nBins = [("x", 1)] := by
  have h1 : distinct [(0 : ℝ), 0] = 1 := by unfold distinct; simp
  unfold flatBuilder FReg.Builder.setLambda FReg.Builder.setLoss FReg.Builder.new flatSample oneColumn
  simp only [List.map_cons, List.map_nil, Feature.name, Feature.distinctValueCount, dense_distinct, h1]
  rfl

theorem flat_columns : ModerateBins flatBuilder.sample flatBuilder.nBins := by
  intro f hf
  have hf' : f ∈ [Feature.dense ⟨"x", [(0 : ℝ), 0]⟩] := hf
  rw [List.mem_singleton] at hf'
  subst hf'
  have hv : ∀ v : ℝ, ValueOf 2 (.dense ⟨"x", [0, 0]⟩) v ↔ v ∈ [(0 : ℝ), 0] := fun v => valueOf_dense (n := 2) (f := ⟨"x", [0, 0]⟩) rfl v
  refine ⟨1, 0, 0, 1, ?_, by norm_num, by norm_num, ⟨(hv _).mpr (by simp), (hv _).mpr (by simp), fun v h => ?_⟩, by norm_num, fun v h => ?_, by norm_num, Or.inl rfl⟩
  · rw [flat_bins]; rfl
  · have := (hv v).mp h
    simp at this
    simp [this]
  · have := (hv v).mp h
    simp at this
    simp [this]

theorem add_one_neg : add (fin 1) (fin (-1)) = fin 0 := by have := FReg.add_int (a := 1) (b := -1) (by norm_num); simpa using this
theorem add_zero_one : add (fin 0) (fin 1) = fin 1 := by have := FReg.add_int (a := 0) (b := 1) (by norm_num); simpa using this
theorem add_zero_zero' : add (fin 0) (fin 0) = fin 0 := by have := FReg.add_int (a := 0) (b := 0) (by norm_num); simpa using this

/-- C121: with the absolute loss and without a regulariser training may panic: two rows with the same value, the targets `1` and `-1` and the
prediction `0`. -/
theorem regression_tree_f64_l1_panics : SampleOk flatSample ∧ flatBuilder.sample = flatSample ∧ flatBuilder.loss = some .L1 ∧ flatBuilder.lambdaL2 = fin 0 ∧
    ModerateBins flatBuilder.sample flatBuilder.nBins ∧
    ∃ t : FReg.Tree, (∀ fuel, 10 ^ 5 ≤ fuel → flatBuilder.build fuel = some (.ok t)) ∧
      (∃ o, FReg.Produce t flatSample [fin 0, fin 0] o) ∧ ∀ o, FReg.Produce t flatSample [fin 0, fin 0] o → o = none := by
  have hs : SampleOk flatSample := oneColumn_ok rfl
  refine ⟨hs, rfl, rfl, rfl, flat_columns, ?_⟩
  obtain ⟨t, t1, t2, t3, t4, t5, t6⟩ := reg_build_f64 flatBuilder hs (by decide) flat_columns (l := .L1) rfl
  refine ⟨t, t1, ?_⟩
  have hfeat : flatSample.features = [.dense ⟨"x", [0, 0]⟩] := rfl
  obtain ⟨rb, r1, r2, r3⟩ := t6 (.dense ⟨"x", [0, 0]⟩) (by show _ ∈ flatSample.features; simp [hfeat])
  rw [flat_bins] at r2
  have hlen : rb.length = 1 := Option.some.inj r2
  obtain ⟨β, rfl⟩ := List.length_eq_one_iff.mp hlen
  have hgrad : ∀ o, FReg.Gradient .L1 [fin 0, fin 0] flatSample.target o ↔ o = some [fin 1, fin (-1)] := by
    intro o
    have hsub1 : sub (fin 1) (fin 0) = fin 1 := by show add (fin 1) (fin (-0)) = _; have := FReg.add_int (a := 1) (b := 0) (by norm_num); simpa using this
    have hsub2 : sub (fin (-1)) (fin 0) = fin (-1) := by show add (fin (-1)) (fin (-0)) = _; have := FReg.add_int (a := -1) (b := 0) (by norm_num); simpa using this
    have ht : flatSample.target = [1, -1] := rfl
    unfold FReg.Gradient
    rw [ht]
    simp only [List.length_cons, List.length_nil, if_true, List.zip_cons_cons, List.zip_nil_right]
    constructor
    · rintro ⟨g, hg, rfl⟩
      cases hg with
      | cons h1 hg => cases hg with
        | cons h2 hg => cases hg with
          | nil =>
            change FReg.Signum (sub (fin 1) (fin 0)) _ at h1
            change FReg.Signum (sub (fin (-1)) (fin 0)) _ at h2
            rw [hsub1] at h1
            rw [hsub2] at h2
            rcases h1 with ⟨-, rfl⟩ | ⟨h1, -⟩
            · rcases h2 with ⟨h2, -⟩ | ⟨-, rfl⟩
              · norm_num at h2
              · rfl
            · norm_num at h1
    · rintro rfl
      refine ⟨_, .cons ?_ (.cons ?_ .nil), rfl⟩
      · show FReg.Signum (sub (fin 1) (fin 0)) _
        rw [hsub1]
        exact Or.inl ⟨by norm_num, rfl⟩
      · show FReg.Signum (sub (fin (-1)) (fin 0)) _
        rw [hsub2]
        exact Or.inr ⟨by norm_num, rfl⟩
  have hhess : FReg.hessian .L1 [fin 0, fin 0] flatSample.target = some [fin 0, fin 0] := rfl
  have hrows : FReg.Rows flatSample [fin 1, fin (-1)] [fin 0, fin 0] [0, 1] := ⟨by intro i hi; simp at hi; rcases hi with rfl | rfl <;> decide, rfl, rfl, by norm_num⟩
  have hv : ∀ i < flatSample.nSample, |(Feature.dense ⟨"x", [(0 : ℝ), 0]⟩).val i| < maxVal := by
    intro i hi
    have : (Feature.dense ⟨"x", [(0 : ℝ), 0]⟩).val i = 0 := by
      have hi' : i < 2 := hi
      interval_cases i <;> rfl
    rw [this]
    exact big_lt (by norm_num)
  have hpack : FReg.pack ([β].map FTree.toF) [0, 1] (.dense ⟨"x", [0, 0]⟩) [fin 1, fin (-1)] [fin 0, fin 0] = none := by
    obtain ⟨res, p1, p2, p3⟩ := FReg.packLoop_eq r3 hs (f := .dense ⟨"x", [0, 0]⟩) (by simp [hfeat]) hv [0, 1] hrows [(fin 0, fin 0)] rfl
    have hpos : ∀ i ∈ [0, 1], FReg.binOf [β] (.dense ⟨"x", [0, 0]⟩) i = 0 := by
      intro i hi
      have := (FReg.binOf_ok r3 (hv i (hrows.row i hi))).2
      simpa using this
    have hfil : ([0, 1].filter fun i => decide (FReg.binOf [β] (.dense ⟨"x", [0, 0]⟩) i = 0)) = [0, 1] :=
      List.filter_eq_self.mpr fun i hi => by rw [hpos i hi]; rfl
    have := p3 0 (fin 0, fin 0) rfl
    rw [hfil] at this
    simp only [List.map_cons, List.map_nil, List.foldl_cons, List.foldl_nil, List.getD_cons_zero, List.getD_cons_succ, add_zero_one, add_one_neg, add_zero_zero'] at this
    obtain ⟨r, rfl⟩ := List.length_eq_one_iff.mp p2
    have hr : r = (fin 0, fin 0) := by simpa using this
    subst hr
    unfold FReg.pack
    have e : List.replicate ([β].map FTree.toF).length ((fin 0, fin 0) : F64 × F64) = [(fin 0, fin 0)] := rfl
    rw [e, p1]
    simp [FReg.removeZero]
  have hloss : ∀ c, FReg.PredLoss [0, 1] [fin 1, fin (-1)] [fin 0, fin 0] (fin 0) c → ∃ v, c = some (v, nan) := by
    intro c hc
    obtain ⟨a, b, ⟨sp, hsp, rfl⟩, ⟨sp', hsp', rfl⟩, rfl⟩ := (FReg.predLoss_iff hrows _).mp hc
    have h1 := FReg.split_int sp [1, -1] (by rw [hsp]; simp) (by simp) (by norm_num)
    have h2 := FReg.split_int sp' [0, 0] (by rw [hsp']; simp) (by simp) (by norm_num)
    rw [h1, h2]
    refine ⟨_, congrArg some (Prod.ext rfl ?_)⟩
    have z1 : (([1, -1] : List ℤ).sum : ℤ) = 0 := by simp
    have z2 : (([0, 0] : List ℤ).sum : ℤ) = 0 := by simp
    rw [z1, z2, Int.cast_zero]
    have hz' : mul (fin (-(1 / 2))) (F64.sq (fin 0)) = fin 0 := by
      have h3 : F64.sq (fin 0) = fin 0 := by
        show rnd (0 * 0) = _
        rw [mul_zero, rnd_small (by norm_num), F64.round_zero]
      rw [h3]
      show rnd (-(1 / 2) * 0) = _
      rw [mul_zero, rnd_small (by norm_num), F64.round_zero]
    show div (mul (fin (-(1 / 2))) (F64.sq (fin 0))) (add (fin 0) (fin 0)) = nan
    rw [hz', add_zero_zero']
    show (if (0 : ℝ) = 0 then (if (0 : ℝ) = 0 then nan else _) else _) = _
    rw [if_pos rfl, if_pos rfl]
  have hbest : ∀ o, FReg.BestSplit t.bins flatSample [fin 1, fin (-1)] [fin 0, fin 0] [0, 1] (fin 0) o ↔ o = none := by
    intro o
    unfold FReg.BestSplit
    rw [hfeat]
    have hfs : ∀ o, FReg.FeatureSplit t.bins [fin 1, fin (-1)] [fin 0, fin 0] (fin 0) [0, 1] (.dense ⟨"x", [0, 0]⟩) o ↔ o = none := by
      intro o
      unfold FReg.FeatureSplit
      rw [r1]
      simp only [hpack]
    constructor
    · rintro ⟨os, hos, h⟩
      cases hos with
      | cons h1 hos => cases hos with
        | nil =>
          rw [(hfs _).mp h1] at h
          exact h
    · rintro rfl
      exact ⟨[none], .cons ((hfs _).mpr rfl) .nil, rfl⟩
  have hprod : ∀ o, FReg.Produce t flatSample [fin 0, fin 0] o ↔ o = none := by
    intro o
    unfold FReg.Produce
    rw [t2, hhess, t3, t5]
    have hmd : flatBuilder.maxDepth = 1 + 1 := rfl
    have hrange : List.range flatBuilder.sample.nSample = [0, 1] := rfl
    rw [hmd, hrange]
    have hlam : t.lambdaL2 = fin 0 := t4
    constructor
    · rintro ⟨g, hg, h⟩
      rw [(hgrad g).mp hg] at h
      simp only at h
      unfold FReg.FullTree at h
      obtain ⟨c, hc, h⟩ := h
      rw [hlam] at hc h
      obtain ⟨v, rfl⟩ := hloss c hc
      simp only at h
      rcases h with ⟨h, -⟩ | ⟨-, bb, hb, h⟩
      · simp at h
      · rw [(hbest bb).mp hb] at h
        exact h
    · rintro rfl
      refine ⟨_, (hgrad _).mpr rfl, ?_⟩
      simp only
      unfold FReg.FullTree
      obtain ⟨c, hc⟩ := FReg.exists_predLoss t.lambdaL2 hrows
      rw [hlam] at hc ⊢
      obtain ⟨v, hv⟩ := hloss _ hc
      refine ⟨_, hc, ?_⟩
      rw [hv]
      exact Or.inr ⟨by simp, none, (hbest none).mpr rfl, rfl⟩
  exact ⟨⟨none, (hprod none).mpr rfl⟩, fun o ho => (hprod o).mp ho⟩

/-! ## The hypotheses are met -/

/-- A learner for the column `0`, `1`, `3` and the targets `1`, `-1`, `1`, with a regulariser of one half. -/
noncomputable def halfBuilder (l : GBMLoss) : FReg.Builder := ((FReg.Builder.new giniSample).setLoss l).setLambda (fin (1 / 2))

theorem halfBuilder_bins (l : GBMLoss) : (halfBuilder l).nBins = [("x", 3)] := by
  unfold halfBuilder FReg.Builder.setLambda FReg.Builder.setLoss FReg.Builder.new giniSample oneColumn
  simp only [List.map_cons, List.map_nil, Feature.name, Feature.distinctValueCount, dense_distinct, giniSample_distinct]
  rfl

theorem halfBuilder_columns (l : GBMLoss) : ModerateBins (halfBuilder l).sample (halfBuilder l).nBins := by
  have h := giniSample_columns .edge
  have h2 : ((DecisionTreeBuilder.new giniSample).setCriterion .edge).nBins = (halfBuilder l).nBins := by
    rw [halfBuilder_bins]
    exact giniSample_bins
  intro f hf
  have := h f hf
  rw [h2] at this
  exact this

theorem halfBuilder_target : ModerateValues giniSample.target := by
  have h1 : Double 1 := by have := double_int (k := 1) (by norm_num); simpa using this
  have h2 : Double (-1) := by have := double_int (k := -1) (by norm_num); simpa using this
  intro x hx
  have hx' : x ∈ [(1 : ℝ), -1, 1] := hx
  simp only [List.mem_cons, List.not_mem_nil, or_false] at hx'
  rcases hx' with rfl | rfl | rfl
  · exact ⟨h1, by norm_num⟩
  · exact ⟨h2, by norm_num⟩
  · exact ⟨h1, by norm_num⟩

/-- Predictions that are not numbers. -/
example : ∃ t : FReg.Tree, (∀ fuel, 10 ^ 5 ≤ fuel → (halfBuilder .L2).build fuel = some (.ok t)) ∧ (∃ o, FReg.Produce t giniSample [nan, inf true, fin 7] o) ∧
    ∀ o, FReg.Produce t giniSample [nan, inf true, fin 7] o → ∃ tree, o = some tree ∧ (∀ x, (turns x tree).length ≤ 1) ∧
      ∀ row < 3, ∃ v, FTree.confidence giniSample row tree = some v :=
  regression_tree_f64_trains (halfBuilder .L2) (oneColumn_ok rfl) (by simp [halfBuilder, FReg.Builder.setLambda, FReg.Builder.setLoss, FReg.Builder.new, giniSample, oneColumn]) (by decide) (by simp [halfBuilder, FReg.Builder.setLambda, FReg.Builder.setLoss, FReg.Builder.new, giniSample, oneColumn])
    (halfBuilder_columns _) rfl (Or.inl rfl) _ rfl

theorem half_moderate : ModerateValues [1 / 2] := by
  intro x hx
  rw [List.mem_singleton] at hx
  subst hx
  exact ⟨half_double, by rw [abs_of_pos (by norm_num)]; norm_num⟩

theorem zeros_moderate : ModerateValues [0, 0, 0] := by
  intro x hx
  simp only [List.mem_cons, List.not_mem_nil, or_false, or_self] at hx
  subst hx
  exact ⟨⟨0, 0, by norm_num, by norm_num, by simp⟩, by norm_num⟩

/-- The squared loss. -/
example : ∃ t : FReg.Tree, (∃ o, FReg.Produce t giniSample ([0, 0, 0].map fin) o) ∧ ∀ o, FReg.Produce t giniSample ([0, 0, 0].map fin) o → ∃ tree, o = some tree ∧
    ∃ v : ℕ → ℝ, (∀ row < 3, FTree.confidence giniSample row tree = some (fin (v row))) ∧
      ((List.range 3).map fun i => (giniSample.target.getD i 0 - (([0, 0, 0] : List ℝ).getD i 0 + v i)) ^ 2).sum ≤
        (1 + 1 / 10 ^ 9) * ((List.range 3).map fun i => (giniSample.target.getD i 0 - ([0, 0, 0] : List ℝ).getD i 0) ^ 2).sum + 1 / 10 ^ 40 := by
  obtain ⟨t, -, h1, h2⟩ := regression_tree_f64_reduces_error (halfBuilder .L2) (oneColumn_ok rfl) (by simp [halfBuilder, FReg.Builder.setLambda, FReg.Builder.setLoss, FReg.Builder.new, giniSample, oneColumn]) (by decide) (by simp [halfBuilder, FReg.Builder.setLambda, FReg.Builder.setLoss, FReg.Builder.new, giniSample, oneColumn])
    (halfBuilder_columns _) rfl (lam := 1 / 2) rfl (by norm_num) half_moderate halfBuilder_target [0, 0, 0] rfl zeros_moderate
  exact ⟨t, h1, h2⟩

/-- The values of the leaves, and the absolute loss. -/
example : (∃ t : FReg.Tree, (∃ o, FReg.Produce t giniSample ([0, 0, 0].map fin) o) ∧ ∀ o, FReg.Produce t giniSample ([0, 0, 0].map fin) o → ∃ tree, o = some tree ∧
      ∀ row < 3, ∃ v : ℝ, FTree.confidence giniSample row tree = some (fin v)) ∧
    ∃ t : FReg.Tree, (∃ o, FReg.Produce t giniSample ([0, 0, 0].map fin) o) ∧ ∀ o, FReg.Produce t giniSample ([0, 0, 0].map fin) o → ∃ tree, o = some tree ∧
      ∀ row < 3, FTree.confidence giniSample row tree = some (rnd (-((leafMates giniSample tree row).map fun i => Real.sign (residualAt giniSample [0, 0, 0] i)).sum / (1 / 2))) := by
  constructor
  · obtain ⟨t, -, h1, h2⟩ := regression_tree_f64_leaf_values (halfBuilder .L2) (oneColumn_ok rfl) (by simp [halfBuilder, FReg.Builder.setLambda, FReg.Builder.setLoss, FReg.Builder.new, giniSample, oneColumn]) (by decide) (by simp [halfBuilder, FReg.Builder.setLambda, FReg.Builder.setLoss, FReg.Builder.new, giniSample, oneColumn])
      (halfBuilder_columns _) rfl (lam := 1 / 2) rfl (by norm_num) half_moderate halfBuilder_target [0, 0, 0] rfl zeros_moderate
    refine ⟨t, h1, fun o ho => ?_⟩
    obtain ⟨tree, e, h3⟩ := h2 o ho
    exact ⟨tree, e, fun row hrow => (h3 row hrow).imp fun _ h => h.1⟩
  · obtain ⟨t, -, h1, h2⟩ := regression_tree_f64_l1_leaf_values (halfBuilder .L1) (oneColumn_ok rfl) (by simp [halfBuilder, FReg.Builder.setLambda, FReg.Builder.setLoss, FReg.Builder.new, giniSample, oneColumn]) (by decide) (by simp [halfBuilder, FReg.Builder.setLambda, FReg.Builder.setLoss, FReg.Builder.new, giniSample, oneColumn])
      (halfBuilder_columns _) rfl (lam := 1 / 2) rfl (by norm_num) half_moderate halfBuilder_target [0, 0, 0] rfl zeros_moderate (by
        intro i hi
        have hi' : i < 3 := hi
        have ht : (halfBuilder .L1).sample.target = [1, -1, 1] := rfl
        unfold residualAt
        rw [ht]
        interval_cases i <;> simp)
    exact ⟨t, h1, h2⟩

end Miniboosts.Props
