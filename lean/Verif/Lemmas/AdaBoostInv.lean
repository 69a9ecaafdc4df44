import Verif.Lemmas.AdaBoost

/-! The invariant of AdaBoost's main loop. -/

namespace Miniboosts

open Real

variable {H X : Type*}

theorem innerProduct_eq_zip {K : Type*} [Field K] [LinearOrder K] (S : Examples X K) (g : X → K)
    (d : List K) :
    innerProduct (S.map fun e => e.2 * g e.1) d = Spec.edge S d g := by
  unfold innerProduct Spec.edge
  induction S generalizing d with
  | nil => simp
  | cons e S ih =>
    cases d with
    | nil => simp
    | cons a d => simp [ih, mul_comm]

theorem edge_eq_spec {K : Type*} [Field K] [LinearOrder K] [Classifier H X K] (S : Examples X K)
    (d : List K) (h : H) : edge S d h = Spec.edge S d (conf h) := by
  rw [← innerProduct_eq_zip]
  unfold edge margins innerProduct
  congr 2; funext a b; ring

theorem specEdge_map {K : Type*} [Field K] [LinearOrder K] (S : Examples X K) (d : X × K → K)
    (g : X → K) : Spec.edge S (S.map d) g = (S.map fun e => d e * (e.2 * g e.1)).sum := by
  unfold Spec.edge
  congr 1
  induction S with
  | nil => rfl
  | cons e S ih => simp [ih]

theorem checkBinary_ne_nil {S : Examples X ℝ} (h : checkBinary S = .ok ()) : S ≠ [] := by
  rintro rfl
  simp [checkBinary, isValidBinary] at h

theorem weightedConf_eq_vote {K : Type*} [Field K] [LinearOrder K] [Classifier H X K] (ws : List K)
    (hs : List H) (x : X) : weightedConf ws hs x = Spec.vote conf (List.zip ws hs) x := by
  unfold weightedConf Spec.vote
  rw [List.zip, List.map_zipWith]

theorem edges_append {K : Type*} [Field K] [LinearOrder K] [Classifier H X K] (S : Examples X K)
    (qs : List (List K)) (hs : List H) (hlen : qs.length = hs.length) (q : List K) (h : H) :
    Spec.edges S conf (qs ++ [q]) (hs ++ [h]) = Spec.edges S conf qs hs ++ [Spec.edge S q (conf h)] := by
  unfold Spec.edges
  rw [List.zipWith_append hlen]; rfl

theorem margins_def {K : Type*} [Field K] [LinearOrder K] [Classifier H X K] (S : Examples X K) (h : H) :
    margins S h = S.map fun e => e.2 * conf h e.1 := rfl

namespace AdaBoost

structure Inv [Classifier H X ℝ] (S : Examples X ℝ) (s₀ : AdaBoost H) (n : Nat)
    (qs : List (List ℝ)) (s : AdaBoost H) : Prop where
  ne : S ≠ []
  wlen : s.weights.length = n
  hlen : s.hypotheses.length = n
  qlen : qs.length = n
  dist : s.dist = Spec.expWeights S (weightedConf s.weights s.hypotheses)
  edges : ∀ γ ∈ Spec.edges S conf qs s.hypotheses, |γ| < 1
  weights : s.weights = (Spec.edges S conf qs s.hypotheses).map hypWeight
  max : s.maxIter = match s₀.forceQuitAt with | some it => it | none => maxLoop S s₀
  le : n ≤ s.maxIter
  q : ∀ q ∈ qs, q.length = S.length ∧ Spec.IsPosProb q

/-- What a call of `boost` does in a state whose weights are exponential weights. -/
theorem boost_cont [Classifier H X ℝ] {S : Examples X ℝ} {s : AdaBoost H} {wl : WeakLearner ℝ H}
    {it : Nat} {F : X → ℝ} (hne : S ≠ []) (hd : s.dist = Spec.expWeights S F)
    {out} (hb : boost S s wl it = .ok out) (hf : out.flow = .cont) :
    it ≤ s.maxIter ∧ |Spec.edge S s.dist (conf (wl it s.dist))| < 1 ∧ out.queries = [s.dist] ∧
    out.state = { s with
      dist := Spec.expWeights S fun x => F x +
        hypWeight (Spec.edge S s.dist (conf (wl it s.dist))) * conf (wl it s.dist) x
      weights := s.weights ++ [hypWeight (Spec.edge S s.dist (conf (wl it s.dist)))]
      hypotheses := s.hypotheses ++ [wl it s.dist] } := by
  unfold boost at hb
  split at hb
  · simp only [Except.ok.injEq] at hb; subst hb; simp at hf
  · rename_i hit
    simp only [margins_def, innerProduct_eq_zip, updateParams] at hb
    split at hb
    · simp only [Except.ok.injEq] at hb; subst hb; simp at hf
    · rename_i hedge
      have hrw := reweight_expWeights S hne F (conf (wl it s.dist))
        (hypWeight (Spec.edge S s.dist (conf (wl it s.dist))))
      rw [← hd] at hrw
      rw [hrw] at hb
      simp only [Except.ok.injEq] at hb
      subst hb
      exact ⟨by omega, by simpa using hedge, rfl, rfl⟩

theorem inv_of_reachable [Classifier H X ℝ] {S : Examples X ℝ} {s₀ : AdaBoost H}
    {wl : WeakLearner ℝ H} {n : Nat} {qs : List (List ℝ)} {s : AdaBoost H}
    (h : (booster S).Reachable wl s₀ n qs s) : Inv S s₀ n qs s := by
  induction h with
  | @start s' hp =>
    simp only [booster, preprocess] at hp
    cases hc : checkBinary S with
    | error e => simp [hc] at hp
    | ok u =>
      have hne := checkBinary_ne_nil (S := S) (by cases u; exact hc)
      simp only [hc, Except.ok.injEq] at hp
      subst hp
      refine ⟨hne, rfl, rfl, rfl, ?_, ?_, ?_, rfl, Nat.zero_le _, ?_⟩
      · simp only [expWeights_eq, expLoss, weightedConf, List.zipWith_nil_left, List.sum_nil, mul_zero,
          neg_zero, exp_zero, sum_map_const', mul_one]
        rw [List.map_const']
      · simp [Spec.edges]
      · simp [Spec.edges]
      · simp
  | @step n qs s₁ out hr hb hf ih =>
    obtain ⟨h1, h2, h3, h4⟩ := boost_cont ih.ne ih.dist hb hf
    set γ := Spec.edge S s₁.dist (conf (wl (n + 1) s₁.dist)) with hγ
    have hql : qs.length = s₁.hypotheses.length := by rw [ih.qlen, ih.hlen]
    rw [h3, h4]
    refine ⟨ih.ne, ?_, ?_, ?_, ?_, ?_, ?_, ih.max, h1, ?_⟩
    · simp [ih.wlen]
    · simp [ih.hlen]
    · simp [ih.qlen]
    · simp only []
      congr 1
      funext x
      rw [weightedConf_append _ _ (by rw [ih.wlen, ih.hlen])]
    · simp only [edges_append S qs _ hql]
      intro γ' hγ'
      rcases List.mem_append.1 hγ' with h | h
      · exact ih.edges _ h
      · simp only [List.mem_singleton] at h; rw [h]; exact h2
    · simp only [edges_append S qs _ hql, List.map_append, List.map_cons, List.map_nil, ← hγ]
      rw [← ih.weights]
    · intro q hq
      rcases List.mem_append.1 hq with h | h
      · exact ih.q _ h
      · simp only [List.mem_singleton] at h
        subst h
        rw [ih.dist]
        exact ⟨by simp [Spec.expWeights], expWeights_posProb S ih.ne _⟩

/-- Queries of a single `boost` call. -/
theorem boost_queries [Classifier H X ℝ] {S : Examples X ℝ} {s : AdaBoost H}
    {wl : WeakLearner ℝ H} {it : Nat} {out} (hb : boost S s wl it = .ok out) :
    (s.maxIter < it ∧ out.queries = []) ∨ (it ≤ s.maxIter ∧ out.queries = [s.dist]) := by
  unfold boost at hb
  split at hb
  · simp only [Except.ok.injEq] at hb; subst hb; exact .inl ⟨by assumption, rfl⟩
  · rename_i hit
    refine .inr ⟨by omega, ?_⟩
    simp only [updateParams] at hb
    split at hb
    · simp only [Except.ok.injEq] at hb; subst hb; rfl
    · cases hr : reweight s.dist (margins S (wl it s.dist))
          (hypWeight (innerProduct (margins S (wl it s.dist)) s.dist)) with
      | error e => simp [hr] at hb
      | ok d => simp only [hr, Except.ok.injEq] at hb; subst hb; rfl

/-- Exponential loss after the recorded rounds. -/
theorem expLoss_reachable [Classifier H X ℝ] {S : Examples X ℝ} {s₀ : AdaBoost H}
    {wl : WeakLearner ℝ H} {n : Nat} {qs : List (List ℝ)} {s : AdaBoost H}
    (hbd : ∀ k d, ∀ e ∈ S, |e.2 * conf (wl k d) e.1| ≤ 1)
    (h : (booster S).Reachable wl s₀ n qs s) :
    expLoss S (weightedConf s.weights s.hypotheses) ≤
      (S.length : ℝ) * ((Spec.edges S conf qs s.hypotheses).map fun γ => √(1 - γ ^ 2)).prod := by
  induction h with
  | @start s' hp =>
    have hi := inv_of_reachable (Booster.Reachable.start (B := booster S) (wl := wl) hp)
    have hw : s'.weights = [] := List.length_eq_zero_iff.1 hi.wlen
    have hh : s'.hypotheses = [] := List.length_eq_zero_iff.1 hi.hlen
    rw [hw, hh]
    simp [expLoss, weightedConf, Spec.edges]
  | @step n qs s₁ out hr hb hf ih =>
    have hi := inv_of_reachable hr
    obtain ⟨h1, h2, h3, h4⟩ := boost_cont hi.ne hi.dist hb hf
    set γ := Spec.edge S s₁.dist (conf (wl (n + 1) s₁.dist)) with hγ
    have hql : qs.length = s₁.hypotheses.length := by rw [hi.qlen, hi.hlen]
    rw [h3, h4]
    simp only [edges_append S qs _ hql, List.map_append, List.prod_append, List.map_cons,
      List.map_nil, List.prod_cons, List.prod_nil, mul_one, ← hγ]
    have hfun : weightedConf (s₁.weights ++ [hypWeight γ]) (s₁.hypotheses ++ [wl (n + 1) s₁.dist]) =
        fun x : X => weightedConf s₁.weights s₁.hypotheses x +
          hypWeight γ * conf (wl (n + 1) s₁.dist) x := by
      funext x; rw [weightedConf_append _ _ (by rw [hi.wlen, hi.hlen])]
    rw [hfun]
    have hstep := expLoss_step S hi.ne (weightedConf s₁.weights s₁.hypotheses)
      (conf (wl (n + 1) s₁.dist)) (hypWeight γ) γ (hbd _ _) (by
        rw [hγ]; conv_rhs => rw [hi.dist]
        rw [expWeights_eq, specEdge_map, ← expWeights_eq, ← hi.dist])
    rw [step_factor h2] at hstep
    refine hstep.trans ?_
    rw [← mul_assoc]
    exact mul_le_mul_of_nonneg_right ih (sqrt_nonneg _)

end AdaBoost

end Miniboosts
