import Verif.Lemmas.AdaBoostErr
import Verif.Model.AdaBoostV

/-! Helper lemmas for AdaBoostV. -/

namespace Miniboosts

open Real AdaBoost

variable {H X : Type*}

theorem hasDerivAt_hypWeight {x : ℝ} (h1 : -1 < x) (h2 : x < 1) :
    HasDerivAt (fun x => (log (1 + x) - log (1 - x)) / 2) (1 / (1 - x ^ 2)) x := by
  have d1 : HasDerivAt (fun x : ℝ => log (1 + x)) (1 / (1 + x)) x :=
    ((hasDerivAt_id x).const_add 1).log (by simp; linarith)
  have d2 : HasDerivAt (fun x : ℝ => log (1 - x)) (-1 / (1 - x)) x :=
    ((hasDerivAt_id x).const_sub 1).log (by simp; linarith)
  have := (d1.sub d2).div_const 2
  refine this.congr_deriv ?_
  have a1 : (1 : ℝ) + x ≠ 0 := by linarith
  have a2 : (1 : ℝ) - x ≠ 0 := by linarith
  have a3 : (1 : ℝ) - x ^ 2 ≠ 0 := by
    rw [show (1 : ℝ) - x ^ 2 = (1 + x) * (1 - x) by ring]; exact mul_ne_zero a1 a2
  rw [show (1 : ℝ) - x ^ 2 = (1 + x) * (1 - x) by ring]
  field_simp
  ring

theorem hypWeight_eq {x : ℝ} (h1 : -1 < x) (h2 : x < 1) :
    hypWeight x = (log (1 + x) - log (1 - x)) / 2 := by
  unfold hypWeight
  rw [log_div (by linarith) (by linarith)]

/-- `atanh γ - atanh ρ ≥ γ - ρ`. -/
theorem hypWeight_sub_ge {ρ γ : ℝ} (h1 : -1 < ρ) (h2 : ρ ≤ γ) (h3 : γ < 1) :
    γ - ρ ≤ hypWeight γ - hypWeight ρ := by
  have hmono : MonotoneOn (fun x => (log (1 + x) - log (1 - x)) / 2 - x) (Set.Ioo (-1) 1) := by
    apply monotoneOn_of_deriv_nonneg (convex_Ioo _ _)
    · intro x hx
      exact ((hasDerivAt_hypWeight hx.1 hx.2).sub (hasDerivAt_id x)).continuousAt.continuousWithinAt
    · intro x hx
      rw [interior_Ioo] at hx
      exact ((hasDerivAt_hypWeight hx.1 hx.2).sub
        (hasDerivAt_id x)).differentiableAt.differentiableWithinAt
    · intro x hx
      rw [interior_Ioo] at hx
      have hd := ((hasDerivAt_hypWeight hx.1 hx.2).sub (hasDerivAt_id x)).deriv
      have : deriv (fun x => (log (1 + x) - log (1 - x)) / 2 - x) x = 1 / (1 - x ^ 2) - 1 := hd
      rw [this]
      have hx2 : 0 < 1 - x ^ 2 := by nlinarith [hx.1, hx.2]
      rw [sub_nonneg, le_div_iff₀ hx2]
      nlinarith [sq_nonneg x]
  have := hmono ⟨h1, by linarith⟩ ⟨by linarith, h3⟩ h2
  simp only at this
  rw [hypWeight_eq (by linarith) h3, hypWeight_eq h1 (by linarith)]
  linarith

/-- Binary Pinsker inequality in the `±1` parametrisation. -/
theorem binary_pinsker {ρ γ : ℝ} (h1 : -1 < ρ) (h2 : ρ ≤ γ) (h3 : γ < 1) :
    (γ - ρ) ^ 2 / 2 ≤ (1 + ρ) / 2 * (log (1 + ρ) - log (1 + γ)) +
      (1 - ρ) / 2 * (log (1 - ρ) - log (1 - γ)) := by
  have hder : ∀ x ∈ Set.Ioo (-1 : ℝ) 1, HasDerivAt (fun x => (1 + ρ) / 2 * (log (1 + ρ) - log (1 + x)) +
      (1 - ρ) / 2 * (log (1 - ρ) - log (1 - x)) - (x - ρ) ^ 2 / 2)
      ((x - ρ) * (1 / (1 - x ^ 2) - 1)) x := by
    intro x hx
    have d1 : HasDerivAt (fun x : ℝ => log (1 + x)) (1 / (1 + x)) x :=
      ((hasDerivAt_id x).const_add 1).log (by simp; linarith [hx.1])
    have d2 : HasDerivAt (fun x : ℝ => log (1 - x)) (-1 / (1 - x)) x :=
      ((hasDerivAt_id x).const_sub 1).log (by simp; linarith [hx.2])
    have d3 : HasDerivAt (fun x : ℝ => (x - ρ) ^ 2 / 2) ((2 : ℕ) * (x - ρ) ^ (2 - 1) * 1 / 2) x :=
      (((hasDerivAt_id x).sub_const ρ).pow 2).div_const 2
    have := ((((hasDerivAt_const x (log (1 + ρ))).sub d1).const_mul ((1 + ρ) / 2)).add
      (((hasDerivAt_const x (log (1 - ρ))).sub d2).const_mul ((1 - ρ) / 2))).sub d3
    refine this.congr_deriv ?_
    have a1 : (1 : ℝ) + x ≠ 0 := by linarith [hx.1]
    have a2 : (1 : ℝ) - x ≠ 0 := by linarith [hx.2]
    rw [show (1 : ℝ) - x ^ 2 = (1 + x) * (1 - x) by ring]
    field_simp
    norm_num
    ring
  have hmono : MonotoneOn (fun x => (1 + ρ) / 2 * (log (1 + ρ) - log (1 + x)) +
      (1 - ρ) / 2 * (log (1 - ρ) - log (1 - x)) - (x - ρ) ^ 2 / 2) (Set.Ico ρ 1) := by
    apply monotoneOn_of_deriv_nonneg (convex_Ico _ _)
    · intro x hx
      exact (hder x ⟨by linarith [hx.1], hx.2⟩).continuousAt.continuousWithinAt
    · intro x hx
      rw [interior_Ico] at hx
      exact (hder x ⟨by linarith [hx.1], hx.2⟩).differentiableAt.differentiableWithinAt
    · intro x hx
      rw [interior_Ico] at hx
      rw [(hder x ⟨by linarith [hx.1], hx.2⟩).deriv]
      have hx2 : 0 < 1 - x ^ 2 := by nlinarith [hx.1, hx.2]
      apply mul_nonneg (by linarith [hx.1])
      rw [sub_nonneg, le_div_iff₀ hx2]
      nlinarith [sq_nonneg x]
  have := hmono (Set.left_mem_Ico.2 (by linarith)) ⟨h2, h3⟩ h2
  simp only [sub_self, mul_zero, add_zero] at this
  norm_num at this
  linarith

/-- The AdaBoostV step factor times `exp(ρ α)`. -/
theorem step_factorV {ρ γ : ℝ} (h1 : -1 < ρ) (h2 : ρ ≤ γ) (h3 : γ < 1) :
    ((1 + γ) / 2 * exp (-(hypWeight γ - hypWeight ρ)) + (1 - γ) / 2 * exp (hypWeight γ - hypWeight ρ)) *
      exp (ρ * (hypWeight γ - hypWeight ρ)) ≤ exp (-((γ - ρ) ^ 2 / 2)) := by
  have hγ1 : -1 < γ := by linarith
  have hρ1 : ρ < 1 := by linarith
  have eq1 := hypWeight_eq hγ1 h3
  have eq2 := hypWeight_eq h1 hρ1
  have p1 : 0 < 1 + γ := by linarith
  have p2 : 0 < 1 - γ := by linarith
  have p3 : 0 < 1 + ρ := by linarith
  have p4 : 0 < 1 - ρ := by linarith
  -- write everything with exponentials of logarithms
  set a := log (1 + γ) with ha
  set b := log (1 - γ) with hb
  set c := log (1 + ρ) with hc
  set d := log (1 - ρ) with hd
  have ea : 1 + γ = exp a := (exp_log p1).symm
  have eb : 1 - γ = exp b := (exp_log p2).symm
  have ec : 1 + ρ = exp c := (exp_log p3).symm
  have ed : 1 - ρ = exp d := (exp_log p4).symm
  have hsum : exp c + exp d = 2 := by rw [← ec, ← ed]; ring
  have hfac : (1 + γ) / 2 * exp (-(hypWeight γ - hypWeight ρ)) +
      (1 - γ) / 2 * exp (hypWeight γ - hypWeight ρ) = exp ((a + b) / 2 - (c + d) / 2) := by
    rw [ea, eb, eq1, eq2]
    have t1 : exp a / 2 * exp (-((a - b) / 2 - (c - d) / 2)) =
        exp c / 2 * exp ((a + b) / 2 - (c + d) / 2) := by
      rw [div_mul_eq_mul_div, div_mul_eq_mul_div, ← exp_add, ← exp_add]
      congr 2; ring
    have t2 : exp b / 2 * exp ((a - b) / 2 - (c - d) / 2) =
        exp d / 2 * exp ((a + b) / 2 - (c + d) / 2) := by
      rw [div_mul_eq_mul_div, div_mul_eq_mul_div, ← exp_add, ← exp_add]
      congr 2; ring
    rw [t1, t2, ← add_mul, ← add_div, hsum]; norm_num
  rw [hfac, ← exp_add]
  apply exp_le_exp.2
  have hp := binary_pinsker h1 h2 h3
  rw [← ha, ← hb, ← hc, ← hd] at hp
  rw [eq1, eq2]
  nlinarith

namespace AdaBoostV

theorem boost_queries [Classifier H X ℝ] {S : Examples X ℝ} {s : AdaBoostV H}
    {wl : WeakLearner ℝ H} {it : Nat} {out} (hb : boost S s wl it = .ok out) :
    (s.maxIter < it ∧ out.queries = []) ∨ (it ≤ s.maxIter ∧ out.queries = [s.dist]) := by
  unfold boost at hb
  split at hb
  · simp only [Except.ok.injEq] at hb; subst hb; exact .inl ⟨by assumption, rfl⟩
  · rename_i hit
    refine .inr ⟨by omega, ?_⟩
    simp only [] at hb
    split at hb
    · simp only [Except.ok.injEq] at hb; subst hb; rfl
    · cases hr : updateParams s (margins S (wl it s.dist))
          (innerProduct (margins S (wl it s.dist)) s.dist) with
      | error e => simp [hr] at hb
      | ok d => simp only [hr, Except.ok.injEq] at hb; subst hb; rfl

theorem boost_cont [Classifier H X ℝ] {S : Examples X ℝ} {s : AdaBoostV H} {wl : WeakLearner ℝ H}
    {it : Nat} {F : X → ℝ} (hne : S ≠ []) (hd : s.dist = Spec.expWeights S F)
    {out} (hb : boost S s wl it = .ok out) (hf : out.flow = .cont) :
    let γ := Spec.edge S s.dist (conf (wl it s.dist))
    let ρ := min γ s.gamma - s.tolerance
    it ≤ s.maxIter ∧ |γ| < 1 ∧ -1 < ρ ∧ ρ < 1 ∧ out.queries = [s.dist] ∧
    out.state = { s with
      gamma := min γ s.gamma
      rho := ρ
      dist := Spec.expWeights S fun x => F x +
        (hypWeight γ - hypWeight ρ) * conf (wl it s.dist) x
      weights := s.weights ++ [hypWeight γ - hypWeight ρ]
      hypotheses := s.hypotheses ++ [wl it s.dist] } := by
  intro γ ρ
  unfold boost at hb
  split at hb
  · simp only [Except.ok.injEq] at hb; subst hb; simp at hf
  · rename_i hit
    simp only [margins_def, innerProduct_eq_zip, updateParams] at hb
    split at hb
    · simp only [Except.ok.injEq] at hb; subst hb; simp at hf
    · rename_i hedge
      by_cases hρ : -1 < min (Spec.edge S s.dist (conf (wl it s.dist))) s.gamma - s.tolerance ∧
          min (Spec.edge S s.dist (conf (wl it s.dist))) s.gamma - s.tolerance < 1
      · rw [if_pos hρ] at hb
        have hrw := reweight_expWeights S hne F (conf (wl it s.dist)) (hypWeight γ - hypWeight ρ)
        rw [← hd] at hrw
        unfold hypWeight at hrw
        simp only [γ, ρ] at hrw
        rw [hrw] at hb
        simp only [Except.ok.injEq] at hb
        subst hb
        exact ⟨by omega, by simpa using hedge, hρ.1, hρ.2, rfl, rfl⟩
      · rw [if_neg hρ] at hb
        simp at hb

structure Inv [Classifier H X ℝ] (S : Examples X ℝ) (s₀ : AdaBoostV H) (n : Nat)
    (qs : List (List ℝ)) (s : AdaBoostV H) : Prop where
  ne : S ≠ []
  wlen : s.weights.length = n
  hlen : s.hypotheses.length = n
  qlen : qs.length = n
  dist : s.dist = Spec.expWeights S (weightedConf s.weights s.hypotheses)
  edges : ∀ γ ∈ Spec.edges S conf qs s.hypotheses, |γ| < 1
  gamma : s.gamma = (Spec.edges S conf qs s.hypotheses).foldr min 1
  tol : s.tolerance = s₀.tolerance
  rho : n = 0 ∧ s.rho = 1 ∨ 0 < n ∧ s.rho = s.gamma - s.tolerance ∧ -1 < s.rho ∧ s.rho < 1
  max : s.maxIter = match s₀.forceQuitAt with | some it => it | none => maxLoop S s₀
  le : n ≤ s.maxIter
  q : ∀ q ∈ qs, q.length = S.length ∧ Spec.IsPosProb q

theorem foldr_min_append (l : List ℝ) (a : ℝ) :
    (l ++ [a]).foldr min 1 = min a (l.foldr min 1) := by
  induction l with
  | nil => simp
  | cons b l ih => simp only [List.cons_append, List.foldr_cons, ih]; rw [min_left_comm]

theorem inv_of_reachable [Classifier H X ℝ] {S : Examples X ℝ} {s₀ : AdaBoostV H}
    {wl : WeakLearner ℝ H} {n : Nat} {qs : List (List ℝ)} {s : AdaBoostV H}
    (h : (booster S).Reachable wl s₀ n qs s) : Inv S s₀ n qs s := by
  induction h with
  | @start s' hp =>
    simp only [booster, preprocess] at hp
    cases hc : checkBinary S with
    | error e => simp [hc] at hp
    | ok u =>
      have hne := checkBinary_ne_nil (S := S) (by cases u; exact hc)
      simp only [hc, Except.ok.injEq] at hp
      subst hp
      refine ⟨hne, rfl, rfl, rfl, ?_, ?_, ?_, rfl, .inl ⟨rfl, rfl⟩, rfl, Nat.zero_le _, ?_⟩
      · simp only [expWeights_eq, expLoss, weightedConf, List.zipWith_nil_left, List.sum_nil, mul_zero,
          neg_zero, exp_zero, sum_map_const', mul_one]
        rw [List.map_const']
      · simp [Spec.edges]
      · simp [Spec.edges]
      · simp
  | @step n qs s₁ out hr hb hf ih =>
    obtain ⟨h1, h2, h2a, h2b, h3, h4⟩ := boost_cont ih.ne ih.dist hb hf
    have hql : qs.length = s₁.hypotheses.length := by rw [ih.qlen, ih.hlen]
    rw [h3, h4]
    refine ⟨ih.ne, ?_, ?_, ?_, ?_, ?_, ?_, ih.tol, ?_, ih.max, h1, ?_⟩
    · simp [ih.wlen]
    · simp [ih.hlen]
    · simp [ih.qlen]
    · simp only []
      congr 1
      funext x
      rw [weightedConf_append _ _ (by rw [ih.wlen, ih.hlen])]
    · simp only [edges_append S qs _ hql]
      intro γ' hγ'
      rcases List.mem_append.1 hγ' with h | h
      · exact ih.edges _ h
      · simp only [List.mem_singleton] at h; rw [h]; exact h2
    · simp only [edges_append S qs _ hql, foldr_min_append]
      rw [ih.gamma]
    · exact .inr ⟨by omega, rfl, h2a, h2b⟩
    · intro q hq
      rcases List.mem_append.1 hq with h | h
      · exact ih.q _ h
      · simp only [List.mem_singleton] at h
        subst h
        rw [ih.dist]
        exact ⟨by simp [Spec.expWeights], expWeights_posProb S ih.ne _⟩

/-- The potential of AdaBoostV, together with the weights being at least the tolerance. -/
theorem potential [Classifier H X ℝ] {S : Examples X ℝ} {s₀ : AdaBoostV H}
    {wl : WeakLearner ℝ H} {n : Nat} {qs : List (List ℝ)} {s : AdaBoostV H}
    (hbd : ∀ k d, ∀ e ∈ S, |e.2 * conf (wl k d) e.1| ≤ 1) (htol : 0 ≤ s₀.tolerance)
    (h : (booster S).Reachable wl s₀ n qs s) :
    (∀ w ∈ s.weights, s₀.tolerance ≤ w) ∧
    expLoss S (weightedConf s.weights s.hypotheses) * exp (s.rho * s.weights.sum) ≤
      (S.length : ℝ) * exp (-(n * (s₀.tolerance ^ 2 / 2))) := by
  induction h with
  | @start s' hp =>
    have hi := inv_of_reachable (Booster.Reachable.start (B := booster S) (wl := wl) hp)
    have hw : s'.weights = [] := List.length_eq_zero_iff.1 hi.wlen
    have hh : s'.hypotheses = [] := List.length_eq_zero_iff.1 hi.hlen
    rw [hw, hh]
    simp [expLoss, weightedConf]
  | @step n qs s₁ out hr hb hf ih =>
    have hi := inv_of_reachable hr
    obtain ⟨h1, h2, h2a, h2b, h3, h4⟩ := boost_cont hi.ne hi.dist hb hf
    set h := wl (n + 1) s₁.dist with hh
    set γ := Spec.edge S s₁.dist (conf (X := X) h) with hγ
    set ρ := min γ s₁.gamma - s₁.tolerance with hρ
    obtain ⟨ihw, ihp⟩ := ih
    have htol' : s₁.tolerance = s₀.tolerance := hi.tol
    have hργ : ρ + s₀.tolerance ≤ γ := by rw [hρ, htol']; linarith [min_le_left γ s₁.gamma]
    have hwge : s₀.tolerance ≤ hypWeight γ - hypWeight ρ := by
      have := hypWeight_sub_ge h2a (by linarith) (abs_lt.1 h2).2
      linarith
    have hw0 : 0 ≤ s₁.weights.sum := sum_nonneg' _ (fun w hw => htol.trans (ihw w hw))
    rw [h4]
    simp only []
    constructor
    · intro w hw
      rcases List.mem_append.1 hw with h | h
      · exact ihw w h
      · simp only [List.mem_singleton] at h; rw [h]; exact hwge
    · have hfun : weightedConf (s₁.weights ++ [hypWeight γ - hypWeight ρ]) (s₁.hypotheses ++ [h]) =
          fun x : X => weightedConf s₁.weights s₁.hypotheses x +
            (hypWeight γ - hypWeight ρ) * conf h x := by
        funext x; rw [weightedConf_append _ _ (by rw [hi.wlen, hi.hlen])]
      rw [hfun]
      have hstep := expLoss_step S hi.ne (weightedConf s₁.weights s₁.hypotheses)
        (conf h) (hypWeight γ - hypWeight ρ) γ (hbd _ _) (by
          rw [hγ]; conv_rhs => rw [hi.dist]
          rw [expWeights_eq, specEdge_map])
      have hfac := step_factorV h2a (by linarith) (abs_lt.1 h2).2
      have hfac2 : exp (-((γ - ρ) ^ 2 / 2)) ≤ exp (-(s₀.tolerance ^ 2 / 2)) := by
        apply exp_le_exp.2; nlinarith
      have hpos := expLoss_pos S hi.ne (weightedConf (X := X) s₁.weights s₁.hypotheses)
      -- the target never increases
      have hrho : exp (ρ * s₁.weights.sum) ≤ exp (s₁.rho * s₁.weights.sum) := by
        apply exp_le_exp.2
        rcases hi.rho with ⟨h0, hr1⟩ | ⟨h0, hr1, _, _⟩
        · have hw : s₁.weights = [] := List.length_eq_zero_iff.1 (by rw [hi.wlen]; exact h0)
          rw [hw]; simp
        · have : ρ ≤ s₁.rho := by rw [hr1, hρ]; linarith [min_le_right γ s₁.gamma]
          exact mul_le_mul_of_nonneg_right this hw0
      simp only [List.sum_append, List.sum_cons, List.sum_nil, add_zero]
      rw [mul_add, exp_add]
      calc expLoss S (fun x => weightedConf s₁.weights s₁.hypotheses x +
              (hypWeight γ - hypWeight ρ) * conf h x) *
            (exp (ρ * s₁.weights.sum) * exp (ρ * (hypWeight γ - hypWeight ρ)))
          ≤ (expLoss S (weightedConf s₁.weights s₁.hypotheses) *
              ((1 + γ) / 2 * exp (-(hypWeight γ - hypWeight ρ)) +
                (1 - γ) / 2 * exp (hypWeight γ - hypWeight ρ))) *
            (exp (ρ * s₁.weights.sum) * exp (ρ * (hypWeight γ - hypWeight ρ))) :=
            mul_le_mul_of_nonneg_right hstep (by positivity)
        _ = (expLoss S (weightedConf s₁.weights s₁.hypotheses) * exp (ρ * s₁.weights.sum)) *
              (((1 + γ) / 2 * exp (-(hypWeight γ - hypWeight ρ)) +
                (1 - γ) / 2 * exp (hypWeight γ - hypWeight ρ)) *
              exp (ρ * (hypWeight γ - hypWeight ρ))) := by ring
        _ ≤ (expLoss S (weightedConf s₁.weights s₁.hypotheses) * exp (ρ * s₁.weights.sum)) *
              exp (-(s₀.tolerance ^ 2 / 2)) :=
            mul_le_mul_of_nonneg_left (hfac.trans hfac2) (by positivity)
        _ ≤ (expLoss S (weightedConf s₁.weights s₁.hypotheses) * exp (s₁.rho * s₁.weights.sum)) *
              exp (-(s₀.tolerance ^ 2 / 2)) :=
            mul_le_mul_of_nonneg_right (mul_le_mul_of_nonneg_left hrho hpos.le) (exp_pos _).le
        _ ≤ ((S.length : ℝ) * exp (-(n * (s₀.tolerance ^ 2 / 2)))) * exp (-(s₀.tolerance ^ 2 / 2)) :=
            mul_le_mul_of_nonneg_right ihp (exp_pos _).le
        _ = _ := by
            rw [mul_assoc, ← exp_add]; congr 2; push_cast; ring

end AdaBoostV

end Miniboosts
