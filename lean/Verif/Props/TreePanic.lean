import Verif.Props.TreeBoost

/-! # C82: when AdaBoost with decision trees returns -/

set_option linter.unusedSectionVars false

namespace Miniboosts.Props

open Miniboosts Spec Real AdaBoost

section ada

variable {H X : Type*} [Classifier H X ℝ]

theorem reachable_unique {σ K H O : Type*} {B : Booster σ K H O} {wl : WeakLearner K H} {s₀ : σ} {n : Nat} {qs : List (List K)} {s : σ}
    (h : B.Reachable wl s₀ n qs s) : ∀ {qs' : List (List K)} {s' : σ}, B.Reachable wl s₀ n qs' s' → qs = qs' ∧ s = s' := by
  induction h with
  | start h =>
    intro qs' s' h'
    cases h' with
    | start h1 => rw [h, Except.ok.injEq] at h1; exact ⟨rfl, h1⟩
  | step hr hb hf ih =>
    intro qs' s' h'
    cases h' with
    | step hr' hb' hf' =>
      obtain ⟨rfl, rfl⟩ := ih hr'
      rw [hb, Except.ok.injEq] at hb'
      subst hb'
      exact ⟨rfl, rfl⟩

theorem weightedConf_zero (ws : List ℝ) (hs : List H) (h : ∀ w ∈ ws, w = 0) (x : X) : (weightedConf ws hs x : ℝ) = 0 := by
  unfold weightedConf
  induction ws generalizing hs with
  | nil => simp
  | cons w ws ih =>
    cases hs with
    | nil => simp
    | cons a hs =>
      have := ih hs (fun v hv => h v (by simp [hv]))
      simp only [List.zipWith_cons_cons, List.sum_cons, this, h w (by simp)]
      simp

/-- C82: on a binary sample, with a weak learner whose edges are never negative, AdaBoost returns if and only if one of the
distributions it hands out before its limit is answered with a positive edge. -/
theorem adaboost_returns_iff (S : Examples X ℝ) (s₀ : AdaBoost H) (wl : WeakLearner ℝ H) (hvalid : checkBinary S = .ok ())
    (hwl : ∀ k d, d.length = S.length → IsPosProb d → 0 ≤ Spec.edge S d (conf (wl k d))) :
    (∃ f qs, (AdaBoost.booster S).run wl (adaboostLimit S s₀ + 1) s₀ = some (.ok (f, qs))) ↔
      ∃ n qs s, (AdaBoost.booster S).Reachable wl s₀ n qs s ∧ n < adaboostLimit S s₀ ∧
        0 < Spec.edge S s.dist (conf (wl (n + 1) s.dist)) := by
  obtain ⟨r, hrun⟩ := (adaboost_terminates S s₀ wl).1
  have hpre : ∃ s', (AdaBoost.booster S).preprocess s₀ wl = .ok s' := by
    simp only [AdaBoost.booster, AdaBoost.preprocess, hvalid]; exact ⟨_, rfl⟩
  obtain ⟨s', hs'⟩ := hpre
  -- a reachable state remembers the edges of the earlier ones
  have hpast : ∀ n qs s, (AdaBoost.booster S).Reachable wl s₀ n qs s →
      ∀ γ ∈ Spec.edges S conf qs s.hypotheses, ∃ m qs' s', m < n ∧ (AdaBoost.booster S).Reachable wl s₀ m qs' s' ∧
        γ = Spec.edge S s'.dist (conf (wl (m + 1) s'.dist)) := by
    intro n qs s hr
    induction hr with
    | start hp => simp [Spec.edges]
    | @step n qs s₁ out hr hb hf ih =>
      have hi := inv_of_reachable hr
      obtain ⟨h1, h2, h3, h4⟩ := boost_cont hi.ne hi.dist hb hf
      rw [h3, h4]
      simp only [edges_append S qs s₁.hypotheses (by rw [hi.qlen, hi.hlen])]
      intro γ hγ
      rcases List.mem_append.1 hγ with h | h
      · obtain ⟨m, qs', s', a, b⟩ := ih γ h
        exact ⟨m, qs', s', by omega, b⟩
      · simp only [List.mem_singleton] at h
        exact ⟨n, qs, s₁, by omega, hr, h⟩
  -- and every earlier state of the same run is remembered
  have hdet : ∀ n qs s, (AdaBoost.booster S).Reachable wl s₀ n qs s → ∀ m qs' s', m < n →
      (AdaBoost.booster S).Reachable wl s₀ m qs' s' →
      Spec.edge S s'.dist (conf (wl (m + 1) s'.dist)) ∈ Spec.edges S conf qs s.hypotheses := by
    intro n qs s hr
    induction hr with
    | start hp => intro m qs' s' hm; omega
    | @step n qs s₁ out hr hb hf ih =>
      intro m qs' s' hm hr'
      have hi := inv_of_reachable hr
      obtain ⟨h1, h2, h3, h4⟩ := boost_cont hi.ne hi.dist hb hf
      rw [h3, h4]
      simp only [edges_append S qs s₁.hypotheses (by rw [hi.qlen, hi.hlen])]
      by_cases hmn : m < n
      · exact List.mem_append_left _ (ih m qs' s' hmn hr')
      · have : m = n := by omega
        subst this
        obtain ⟨-, rfl⟩ := reachable_unique hr hr'
        exact List.mem_append_right _ (by simp)
  have hnext : ∀ n qs s, (AdaBoost.booster S).Reachable wl s₀ n qs s → n < adaboostLimit S s₀ →
      |Spec.edge S s.dist (conf (wl (n + 1) s.dist))| < 1 → ∃ out, (AdaBoost.booster S).boost s wl (n + 1) = .ok out ∧ out.flow = .cont := by
    intro n qs s hr hn hlt
    have hi := inv_of_reachable hr
    have hmax : s.maxIter = adaboostLimit S s₀ := hi.max
    have hrw := reweight_expWeights S hi.ne (weightedConf s.weights s.hypotheses)
      (conf (wl (n + 1) s.dist)) (hypWeight (Spec.edge S s.dist (conf (wl (n + 1) s.dist))))
    rw [← hi.dist] at hrw
    simp only [AdaBoost.booster, AdaBoost.boost, updateParams, margins_def, innerProduct_eq_zip]
    rw [if_neg (by omega), if_neg (not_le.2 hlt), hrw]
    exact ⟨_, rfl, rfl⟩
  unfold Booster.run at hrun ⊢
  simp only [hs'] at hrun ⊢
  cases hl : (AdaBoost.booster S).loop wl (adaboostLimit S s₀ + 1) s' 1 with
  | none => simp [hl] at hrun
  | some r' =>
    rcases Booster.loop_spec _ wl s₀ (Booster.Reachable.start hs') hl with
      ⟨n', qs', s'', h1, h2, e, h3, h4⟩ | ⟨n', qs', s'', out, k, h1, h2, h3, h4, qs, h5, h6⟩
    · -- boost never panics in a reachable state
      exfalso
      have hi := inv_of_reachable h1
      simp only [AdaBoost.booster, AdaBoost.boost, updateParams, margins_def, innerProduct_eq_zip] at h3
      split at h3
      · simp at h3
      · split at h3
        · simp at h3
        · have hrw := reweight_expWeights S hi.ne (weightedConf s''.weights s''.hypotheses)
            (conf (wl (n' + 1) s''.dist))
            (hypWeight (Spec.edge S s''.dist (conf (wl (n' + 1) s''.dist))))
          rw [← hi.dist] at hrw
          rw [hrw] at h3
          simp at h3
    · subst h6
      simp only []
      have hi := inv_of_reachable h1
      have hmax : s''.maxIter = adaboostLimit S s₀ := hi.max
      by_cases hlt : s''.maxIter < n' + 1
      · -- iteration limit reached
        have hn : n' = adaboostLimit S s₀ := by
          have := hi.le; omega
        have hout : out.state = s'' := by
          simp only [AdaBoost.booster, AdaBoost.boost, if_pos hlt, Except.ok.injEq] at h3
          rw [← h3]
        have hiff := adaboost_postprocess_ok_iff S s₀ wl n' qs' s'' h1
        rw [hout]
        constructor
        · rintro ⟨f, qs1, hf⟩
          have : ∃ f, (AdaBoost.booster S).postprocess s'' = .ok f := by
            cases hp : (AdaBoost.booster S).postprocess s'' with
            | ok f => exact ⟨f, rfl⟩
            | error e => rw [hp] at hf; simp at hf
          obtain ⟨γ, hγ, hpos⟩ := hiff.1 this
          obtain ⟨m, qs2, s2, a, b, c⟩ := hpast _ _ _ h1 γ hγ
          exact ⟨m, qs2, s2, b, by omega, by rw [← c]; exact hpos⟩
        · rintro ⟨m, qs2, s2, a, b, c⟩
          obtain ⟨f, hf⟩ := hiff.2 ⟨_, hdet _ _ _ h1 m qs2 s2 (by omega) a, c⟩
          rw [hf]
          exact ⟨f, qs, rfl⟩
      · -- shortcut
        have hle : n' + 1 ≤ s''.maxIter := by omega
        have hge := hwl (n' + 1) s''.dist (by rw [hi.dist]; simp [Spec.expWeights])
          (by rw [hi.dist]; exact expWeights_posProb S hi.ne _)
        have hedge : 1 ≤ Spec.edge S s''.dist (conf (wl (n' + 1) s''.dist)) := by
          by_contra hcon
          obtain ⟨out', g1, g2⟩ := hnext n' qs' s'' h1 (by omega) (by rw [abs_of_nonneg hge]; linarith)
          rw [h3, Except.ok.injEq] at g1
          rw [← g1, h4] at g2
          cases g2
        obtain ⟨out', ho1, ho2, ho3⟩ := adaboost_perfect_hypothesis S s₀ wl n' qs' s'' h1 hle hedge
        rw [ho1, Except.ok.injEq] at h3
        subst h3
        rw [ho3]
        exact ⟨fun _ => ⟨n', qs', s'', h1, by omega, by linarith⟩, fun _ => ⟨_, qs, rfl⟩⟩

theorem expWeights_zero (S : Examples X ℝ) (F : X → ℝ) (h : ∀ x, F x = 0) :
    Spec.expWeights S F = List.replicate S.length (1 / (S.length : ℝ)) := by
  unfold Spec.expWeights
  simp [h, List.map_const']

/-- C82: for a learner that answers by the distribution alone (like the decision trees), AdaBoost with a limit of at least one
round returns if and only if the very first answer, on the uniform distribution, has a positive edge. -/
theorem adaboost_deterministic_returns_iff (S : Examples X ℝ) (s₀ : AdaBoost H) (A : List ℝ → H) (hvalid : checkBinary S = .ok ())
    (hwl : ∀ d, d.length = S.length → IsPosProb d → 0 ≤ Spec.edge S d (conf (A d))) (hlim : 0 < adaboostLimit S s₀) :
    (∃ f qs, (AdaBoost.booster S).run (fun _ d => A d) (adaboostLimit S s₀ + 1) s₀ = some (.ok (f, qs))) ↔
      0 < Spec.edge S (List.replicate S.length (1 / (S.length : ℝ))) (conf (A (List.replicate S.length (1 / (S.length : ℝ))))) := by
  rw [adaboost_returns_iff S s₀ _ hvalid (fun _ => hwl)]
  set u := List.replicate S.length (1 / (S.length : ℝ)) with hu
  constructor
  · rintro ⟨n, qs, s, hr, hn, hpos⟩
    by_contra hcon
    have hne : S ≠ [] := checkBinary_ne_nil hvalid
    have hup : IsPosProb u := by
      have hp : (0 : ℝ) < S.length := by exact_mod_cast List.length_pos_iff.2 hne
      constructor
      · intro p hp'
        rw [List.eq_of_mem_replicate hp']; positivity
      · rw [hu, List.sum_replicate, nsmul_eq_mul]; field_simp
    have h0 : Spec.edge S u (conf (A u)) = 0 := le_antisymm (not_lt.1 hcon) (hwl u (by simp [hu]) hup)
    -- the distribution never moves
    have hmove : ∀ {n qs s} (_ : (AdaBoost.booster S).Reachable (fun _ d => A d) s₀ n qs s),
        (∀ γ ∈ Spec.edges S conf qs s.hypotheses, γ = 0) → s.dist = u := by
      intro n qs s hr hz
      have hi := inv_of_reachable hr
      rw [hi.dist]
      apply expWeights_zero
      intro x
      apply weightedConf_zero
      rw [hi.weights]
      intro w hw
      obtain ⟨γ, hγ, rfl⟩ := List.mem_map.1 hw
      rw [hz γ hγ]; simp [hypWeight]
    have key : ∀ {n qs s} (_ : (AdaBoost.booster S).Reachable (fun _ d => A d) s₀ n qs s),
        ∀ γ ∈ Spec.edges S conf qs s.hypotheses, γ = 0 := by
      intro n qs s hr
      induction hr with
      | start hp => simp [Spec.edges]
      | @step n qs s₁ out hr hb hf ih =>
        have hi := inv_of_reachable hr
        obtain ⟨h1, h2, h3, h4⟩ := boost_cont hi.ne hi.dist (show AdaBoost.boost S s₁ (fun _ d => A d) (n + 1) = .ok out from hb) hf
        rw [h3, h4]
        simp only [edges_append S qs s₁.hypotheses (by rw [hi.qlen, hi.hlen])]
        intro γ hγ
        rcases List.mem_append.1 hγ with h | h
        · exact ih γ h
        · simp only [List.mem_singleton] at h
          rw [h, hmove hr ih, h0]
    rw [hmove hr (key hr), h0] at hpos
    exact lt_irrefl _ hpos
  · intro hpos
    have hpre : ∃ s', (AdaBoost.booster S).preprocess s₀ (fun _ d => A d) = .ok s' ∧ s'.dist = u := by
      simp only [AdaBoost.booster, AdaBoost.preprocess, hvalid]; exact ⟨_, rfl, rfl⟩
    obtain ⟨s', hs', hd'⟩ := hpre
    exact ⟨0, [], s', Booster.Reachable.start hs', hlim, by rw [hd']; exact hpos⟩

end ada

section trees

variable {env : TreeEnv ℝ} {t : DecisionTree ℝ} {s : Sample ℝ} {dist : List ℝ}

/-- The uniform distribution on the rows. -/
noncomputable def uniformDist (n : Nat) : List ℝ := List.replicate n (1 / (n : ℝ))

theorem uniformDist_prob {n : Nat} (hn : 0 < n) : IsPosProb (uniformDist n) := by
  have hp : (0 : ℝ) < n := by exact_mod_cast hn
  constructor
  · intro p hp'
    rw [List.eq_of_mem_replicate hp']; positivity
  · rw [uniformDist, List.sum_replicate, nsmul_eq_mul]; field_simp

/-- C82: AdaBoost with decision trees (any criterion, any depth, binary `±1` sample, limit of at least one round) returns if and
only if the first tree, trained on the uniform distribution, has a positive edge. -/
theorem adaboost_trees_return_iff (ok : TreesOk env t s) (hvalid : s.isValidBinaryInstance = .ok ()) (s₀ : AdaBoost (TreeNode ℝ))
    (hlim : 0 < adaboostLimit s.rows s₀) :
    (∃ f qs, (AdaBoost.booster s.rows).run (treeLearner env t s) (adaboostLimit s.rows s₀ + 1) s₀ = some (.ok (f, qs))) ↔
      0 < Spec.edge s.rows (uniformDist s.nSample) (conf (treeLearner env t s 1 (uniformDist s.nSample))) := by
  have h := adaboost_deterministic_returns_iff s.rows s₀ (treeLearner env t s 1) (rows_checkBinary ok hvalid) (by
    intro d hd hp
    rw [rows_length] at hd
    have hp' := isProb_of_pos hp
    obtain ⟨tree, h1, h2, h3⟩ := answered ok hd hp'
    obtain ⟨c, c1, c2, c3⟩ := tree_edge_nonneg ok.order ok.sample hd hp'.1 ok.labels h1
    rw [h2 1, edge_rows hd]
    refine c3.trans (le_of_eq ?_)
    congr 1
    apply List.map_congr_left
    intro i hi
    rw [conf_ok (c1 i (List.mem_range.1 hi))]) hlim
  rw [rows_length] at h
  exact h

theorem tiles_head {a z : ℝ} {bins : List (Bin ℝ)} (h : Tiles a bins z) (haz : a < z) : ∃ b ∈ bins, b.start = a := by
  cases bins with
  | nil => rw [Tiles] at h; exact absurd h haz.ne
  | cons b l => exact ⟨b, by simp, h.1⟩

/-- A tree with a single test has no edge when no stump at a bin boundary has one. -/
theorem stump_tree_edge_zero (ht : TrainOk env t s dist) (hdepth : t.maxDepth = 1) (hnn : ∀ d ∈ dist, 0 ≤ d)
    (hpm : ∀ y ∈ s.target, y = 1 ∨ y = -1)
    (hz : ∀ g ∈ s.features, ∀ th, IsBoundary t.bins g th →
      ((List.range s.nSample).map (fun i => dist.getD i 0 * s.target.getD i 0 * stump g th i)).sum = 0)
    {tree : TreeNode ℝ} (h : t.produce env s dist = .ok tree) :
    ∃ conf : Nat → ℝ, (∀ i < s.nSample, tree.confidence s i = .ok (conf i)) ∧
      ((List.range s.nSample).map (fun i => dist.getD i 0 * s.target.getD i 0 * conf i)).sum = 0 := by
  obtain ⟨node, hn, hr, hg, rfl⟩ := produce_grown ht.order ht.sample ht.weights h
  refine ⟨fun i => evalAt s i (TreeNode.ofTrain node), grown_confidence_all ht.sample node hr.1 hg, ?_⟩
  have e1 : treeEdge s dist (trainRows s dist) (TreeNode.ofTrain node)
      = ((List.range s.nSample).map (fun i => dist.getD i 0 * s.target.getD i 0 * evalAt s i (TreeNode.ofTrain node))).sum := by
    unfold treeEdge
    simp only [mul_assoc]
    exact sum_train hnn _
  rw [← e1]
  set idx := trainRows s dist with hidx
  -- a stump's edge is the difference of the two sides
  have hside : ∀ g ∈ s.features, ∀ th, IsBoundary t.bins g th →
      labelSum s dist (idx.filter (fun i => !leftOf s ⟨g.name, th⟩ i)) - labelSum s dist (idx.filter (leftOf s ⟨g.name, th⟩)) = 0 := by
    intro g hgm th hb
    have := hz g hgm th hb
    simp only [mul_assoc] at this
    rw [← sum_train hnn, ← hidx] at this
    rw [← this]
    clear hn hg hr h e1 this
    induction idx with
    | nil => simp [labelSum]
    | cons i idx ih =>
      have hl : leftOf s ⟨g.name, th⟩ i = decide (g.val i < th) := by
        unfold leftOf; rw [cell_eq ht.sample hgm]
      have hcons : ∀ (j : Nat) (l : List Nat), labelSum s dist (j :: l) = dist.getD j 0 * s.target.getD j 0 + labelSum s dist l := by
        intro j l; simp [labelSum]
      rw [List.map_cons, List.sum_cons, ← ih]
      by_cases hlt : g.val i < th
      · rw [List.filter_cons_of_neg (by simp [hl, hlt]), List.filter_cons_of_pos (by simp [hl, hlt]), hcons, stump, if_pos hlt]
        ring
      · rw [List.filter_cons_of_pos (by simp [hl, hlt]), List.filter_cons_of_neg (by simp [hl, hlt]), hcons, stump, if_neg hlt]
        ring
  -- the two labels balance
  have htot : labelSum s dist idx = 0 := by
    obtain ⟨g, hgm⟩ := List.exists_mem_of_ne_nil _ ht.columns
    obtain ⟨bins, hb, htl⟩ := ht.bins g hgm
    obtain ⟨b, hbm, hbs⟩ := tiles_head htl ht.ext
    have h1 := hside g hgm env.fmin ⟨bins, hb, b, hbm, .inl hbs.symm⟩
    have h2 : idx.filter (leftOf s ⟨g.name, env.fmin⟩) = [] := by
      rw [List.filter_eq_nil_iff]
      intro i hi
      have := (ht.values g hgm i (hr.2 i hi).1).1
      simp only [leftOf, cell_eq ht.sample hgm, decide_eq_true_eq, not_lt]
      exact this
    have h3 := labelSum_filter s dist idx (leftOf s ⟨g.name, env.fmin⟩)
    rw [h2] at h1 h3
    simp only [labelSum, List.map_nil, List.sum_nil] at h1 h3 ⊢
    linarith
  obtain ⟨c, l, c1, c2⟩ := confidenceAndLoss_ok ht.order (s := s) (dist := dist) hr.1
      (fun i hi => ⟨by rw [ht.sample.labels]; exact (hr.2 i hi).1, by rw [ht.weights]; exact (hr.2 i hi).1, (hr.2 i hi).2⟩)
  rw [hdepth] at hn
  unfold DecisionTree.fullTree at hn
  rw [sumDist_ok (fun i hi => by rw [ht.weights]; exact (hr.2 i hi).1), c1] at hn
  simp only at hn
  have leafZero : ∀ c w l, node = .leaf c w l → treeEdge s dist idx (TreeNode.ofTrain node) = 0 := by
    intro c w l hc
    rw [hc, TreeNode.ofTrain, treeEdge_leaf, htot, mul_zero]
  split at hn
  · simp only [Except.ok.injEq] at hn
    exact leafZero _ _ _ hn.symm
  · obtain ⟨f, hf, bt, b1, ⟨bins, b, b4, b5, b6⟩, b3⟩ := best_split_optimal ht t.criterion hr.1 hr.2
    rw [b1] at hn
    simp only at hn
    rw [splitRows_ok ht.sample hf bt idx (fun i hi => (hr.2 i hi).1)] at hn
    simp only at hn
    split at hn
    · simp only [Except.ok.injEq] at hn
      exact leafZero _ _ _ hn.symm
    · rename_i hlr
      rw [not_or] at hlr
      have rl := rowsOk_filter hr hlr.1
      have rr := rowsOk_filter hr hlr.2
      obtain ⟨n1, g1⟩ := fullTree_ok ht 0 _ rl
      obtain ⟨n2, g2⟩ := fullTree_ok ht 0 _ rr
      rw [g1, g2] at hn
      simp only [Except.ok.injEq] at hn
      subst hn
      -- the chosen threshold separates the rows like a boundary
      obtain ⟨th, hth, hsame⟩ : ∃ th, IsBoundary t.bins f th ∧ SameSplit (idx.map (rowAt s dist f.name)) bt th := by
        rcases b6 with h | h
        · exact ⟨b.start, ⟨bins, b4, b, b5, .inl rfl⟩, h⟩
        · exact ⟨b.stop, ⟨bins, b4, b, b5, .inr rfl⟩, h⟩
      have hleft : ∀ i ∈ idx, leftOf s ⟨f.name, bt⟩ i = leftOf s ⟨f.name, th⟩ i := by
        intro i hi
        have := hsame (rowAt s dist f.name i) (List.mem_map.2 ⟨i, hi, rfl⟩)
        simp only [rowAt] at this
        simp only [leftOf]
        exact decide_eq_decide.2 this
      have hA : idx.filter (leftOf s ⟨f.name, bt⟩) = idx.filter (leftOf s ⟨f.name, th⟩) := List.filter_congr hleft
      have hB : idx.filter (fun i => !leftOf s ⟨f.name, bt⟩ i) = idx.filter (fun i => !leftOf s ⟨f.name, th⟩ i) :=
        List.filter_congr (fun i hi => by rw [hleft i hi])
      have h1 := hside f hf th hth
      have h2 := labelSum_filter s dist idx (leftOf s ⟨f.name, th⟩)
      rw [htot] at h2
      have leafOf : ∀ {idx' : List Nat} {n : TrainNode ℝ}, DecisionTree.fullTree env t s dist 0 idx' = .ok n →
          ∃ c w l, n = .leaf c w l := by
        intro idx' n hh
        unfold DecisionTree.fullTree at hh
        split at hh
        · cases hh
        · split at hh
          · cases hh
          · simp only [Except.ok.injEq] at hh
            exact ⟨_, _, _, hh.symm⟩
      obtain ⟨a1, a2, a3, rfl⟩ := leafOf g1
      obtain ⟨a4, a5, a6, rfl⟩ := leafOf g2
      simp only [TrainNode.mkBranch, TreeNode.ofTrain, treeEdge_branch, treeEdge_leaf]
      rw [hA, hB]
      have z1 : labelSum s dist (idx.filter (leftOf s ⟨f.name, th⟩)) = 0 := by linarith
      have z2 : labelSum s dist (idx.filter (fun i => !leftOf s ⟨f.name, th⟩ i)) = 0 := by linarith
      rw [z1, z2, mul_zero, mul_zero, add_zero]

/-- C82: AdaBoost with single-test trees returns if and only if some stump at a bin boundary has a non-zero edge under the uniform
distribution. -/
theorem adaboost_stumps_return_iff (ok : TreesOk env t s) (hdepth : t.maxDepth = 1) (hvalid : s.isValidBinaryInstance = .ok ())
    (s₀ : AdaBoost (TreeNode ℝ)) (hlim : 0 < adaboostLimit s.rows s₀) :
    (∃ f qs, (AdaBoost.booster s.rows).run (treeLearner env t s) (adaboostLimit s.rows s₀ + 1) s₀ = some (.ok (f, qs))) ↔
      ∃ g ∈ s.features, ∃ th, IsBoundary t.bins g th ∧
        ((List.range s.nSample).map (fun i => s.target.getD i 0 * stump g th i)).sum ≠ 0 := by
  rw [adaboost_trees_return_iff ok hvalid s₀ hlim]
  have hn : 0 < s.nSample := by
    have := List.length_pos_iff.2 (checkBinary_ne_nil (rows_checkBinary ok hvalid))
    rwa [rows_length] at this
  have hnr : (0 : ℝ) < s.nSample := by exact_mod_cast hn
  have hlen : (uniformDist s.nSample).length = s.nSample := by simp [uniformDist]
  have hp := isProb_of_pos (uniformDist_prob hn)
  have ht := ok.train _ hlen hp
  obtain ⟨tree, h1⟩ := tree_training_succeeds ht
  have hl : treeLearner env t s 1 (uniformDist s.nSample) = tree := by unfold treeLearner; rw [h1]
  have hscale : ∀ g th, ((List.range s.nSample).map (fun i => (uniformDist s.nSample).getD i 0 * s.target.getD i 0 * stump g th i)).sum
      = 1 / s.nSample * ((List.range s.nSample).map (fun i => s.target.getD i 0 * stump g th i)).sum := by
    intro g th
    rw [← sum_map_mul_left']
    congr 1
    apply List.map_congr_left
    intro i hi
    have : (uniformDist s.nSample).getD i 0 = 1 / s.nSample := by
      rw [uniformDist, List.getD_eq_getElem?_getD, List.getElem?_replicate, if_pos (List.mem_range.1 hi)]
      rfl
    rw [this]; ring
  have hcongr : ∀ c : Nat → ℝ, (∀ i < s.nSample, tree.confidence s i = .ok (c i)) →
      Spec.edge s.rows (uniformDist s.nSample) (conf (treeLearner env t s 1 (uniformDist s.nSample)))
        = ((List.range s.nSample).map (fun i => (uniformDist s.nSample).getD i 0 * s.target.getD i 0 * c i)).sum := by
    intro c hc
    rw [hl, edge_rows hlen]
    congr 1
    apply List.map_congr_left
    intro i hi
    rw [conf_ok (hc i (List.mem_range.1 hi))]
  constructor
  · intro hpos
    by_contra hcon
    push Not at hcon
    obtain ⟨c, c1, c2⟩ := stump_tree_edge_zero ht hdepth hp.1 ok.labels (fun g hg th hb => by
      rw [hscale, hcon g hg th hb, mul_zero]) h1
    rw [hcongr c c1, c2] at hpos
    exact lt_irrefl _ hpos
  · rintro ⟨g, hg, th, hb, hne⟩
    obtain ⟨c, c1, c2⟩ := tree_weak_learner ht ok.ln ok.depth hp.1 ok.labels h1
    have h2 := c2 g hg th hb
    rw [hscale, sum_getD_range _ _ hlen, hp.2, one_mul] at h2
    rw [hcongr c c1]
    have hk : 0 < treeFactor t.criterion := by cases t.criterion <;> simp only [treeFactor] <;> norm_num
    have hsq : 0 < (1 / (s.nSample : ℝ) * ((List.range s.nSample).map (fun i => s.target.getD i 0 * stump g th i)).sum) ^ 2 := by
      have : (1 / (s.nSample : ℝ)) ≠ 0 := by positivity
      positivity
    exact lt_of_lt_of_le (mul_pos hk hsq) h2

/-! ## Exclusive or -/

/-- The four points of the exclusive or. -/
noncomputable def exXorSample : Sample ℝ :=
  { nameToIndex := [("x", 0), ("y", 1)], features := [.dense ⟨"x", [0, 0, 1, 1]⟩, .dense ⟨"y", [0, 1, 0, 1]⟩],
    target := [-1, 1, 1, -1], nSample := 4, nFeature := 2 }

/-- Single-test trees with two bins per column. -/
noncomputable def exXorTree (c : Criterion) (depth : Nat) : DecisionTree ℝ :=
  { bins := [("x", [⟨-1000, 1 / 2⟩, ⟨1 / 2, 1000⟩]), ("y", [⟨-1000, 1 / 2⟩, ⟨1 / 2, 1000⟩])], criterion := c, maxDepth := depth }

theorem exXor_pm : ∀ y ∈ exXorSample.target, y = 1 ∨ y = -1 := by
  intro y hy
  simp [exXorSample] at hy
  tauto

theorem exXor_ok (c : Criterion) {depth : Nat} (hd : 0 < depth) : TreesOk exRealEnv (exXorTree c depth) exXorSample := by
  have hs : SampleOk exXorSample := by
    refine ⟨rfl, by simp [exXorSample, Feature.name], rfl, ?_, rfl⟩
    intro f hf
    simp only [exXorSample, List.mem_cons, List.not_mem_nil, or_false] at hf
    rcases hf with rfl | rfl <;> rfl
  refine ⟨?_, exXor_pm, hd, fun _ => rfl, fun m => List.Perm.refl _, hs⟩
  intro d hd hp
  have hpos := prob_some_pos hp
  rw [hd] at hpos
  refine ⟨by norm_num [exRealEnv], fun m => List.Perm.refl _, hs, by simp [exXorSample], hd, hpos, ?_, ?_⟩
  · intro f hf
    simp only [exXorSample, List.mem_cons, List.not_mem_nil, or_false] at hf
    rcases hf with rfl | rfl
    · refine ⟨[⟨-1000, 1 / 2⟩, ⟨1 / 2, 1000⟩], rfl, ?_⟩
      simp only [Tiles, exRealEnv]
      norm_num
    · refine ⟨[⟨-1000, 1 / 2⟩, ⟨1 / 2, 1000⟩], by simp [exXorTree, HMap.get?, Feature.name], ?_⟩
      simp only [Tiles, exRealEnv]
      norm_num
  · intro f hf i hi
    simp only [exXorSample, List.mem_cons, List.not_mem_nil, or_false] at hf
    have hi' : i < 4 := hi
    rcases hf with rfl | rfl <;> interval_cases i <;> norm_num [Feature.val, exRealEnv]

theorem exXor_binary : exXorSample.isValidBinaryInstance = .ok () := by
  rw [valid_binary_iff_partial]
  · refine ⟨rfl, ?_, ?_⟩
    · intro y hy
      rcases exXor_pm y hy with h | h
      · exact ⟨1, by rw [h]; simp⟩
      · exact ⟨-1, by rw [h]; simp⟩
    · unfold distinct
      have : exXorSample.target.toFinset = {-1, 1} := by
        ext y; simp [exXorSample]; tauto
      rw [this, Finset.card_pair]
      norm_num
  · intro y hy _
    rcases exXor_pm y hy with h | h
    · exact ⟨1, by rw [h]; simp, by norm_num, by norm_num⟩
    · exact ⟨-1, by rw [h]; simp, by norm_num, by norm_num⟩

/-- On the exclusive or, AdaBoost with single-test trees does not return, whatever the criterion and the limit. -/
theorem adaboost_xor_panics (c : Criterion) (s₀ : AdaBoost (TreeNode ℝ)) (hlim : 0 < adaboostLimit exXorSample.rows s₀) :
    ¬ ∃ f qs, (AdaBoost.booster exXorSample.rows).run (treeLearner exRealEnv (exXorTree c 1) exXorSample)
      (adaboostLimit exXorSample.rows s₀ + 1) s₀ = some (.ok (f, qs)) := by
  rw [adaboost_stumps_return_iff (exXor_ok c one_pos) rfl exXor_binary s₀ hlim]
  push Not
  rintro g hg th ⟨bins, hb, b, hbm, hth⟩
  simp only [exXorSample, List.mem_cons, List.not_mem_nil, or_false] at hg
  have hbins : bins = [⟨-1000, 1 / 2⟩, ⟨1 / 2, 1000⟩] := by
    rcases hg with rfl | rfl <;> simp [exXorTree, HMap.get?, Feature.name] at hb <;> simpa using hb.symm
  subst hbins
  simp only [List.mem_cons, List.not_mem_nil, or_false] at hbm
  have hth' : th = -1000 ∨ th = 1 / 2 ∨ th = 1000 := by
    rcases hbm with rfl | rfl <;> rcases hth with rfl | rfl <;> simp
  have hr : List.range exXorSample.nSample = [0, 1, 2, 3] := rfl
  rw [hr]
  rcases hg with rfl | rfl <;> rcases hth' with rfl | rfl | rfl <;> norm_num [stump, Feature.val, exXorSample]

end trees

end Miniboosts.Props
