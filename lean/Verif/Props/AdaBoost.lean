import Verif.Props.Hypothesis
import Verif.Lemmas.AdaBoostErr
import Mathlib.Analysis.Complex.ExponentialBounds

/-! # Properties of AdaBoost (C01 - C06, C52) -/

namespace Miniboosts.Props

open Real AdaBoost

variable {H X : Type*} [Classifier H X ℝ]

/-- C01: every weight vector handed to the weak learner, in any round of any run, has one strictly
positive entry per training example and sums to one. -/
theorem adaboost_queries_are_distributions (S : Examples X ℝ) (s₀ : AdaBoost H)
    (wl : WeakLearner ℝ H) (n : Nat) (qs : List (List ℝ)) (s : AdaBoost H)
    (hr : (AdaBoost.booster S).Reachable wl s₀ n qs s) (out : BoostOut (AdaBoost H) ℝ)
    (hb : (AdaBoost.booster S).boost s wl (n + 1) = .ok out) :
    ∀ q ∈ qs ++ out.queries, q.length = S.length ∧ Spec.IsPosProb q := by
  have hi := inv_of_reachable hr
  intro q hq
  rcases List.mem_append.1 hq with h | h
  · exact hi.q q h
  · rcases boost_queries hb with ⟨_, h2⟩ | ⟨_, h2⟩
    · rw [h2] at h; simp at h
    · rw [h2] at h
      simp only [List.mem_singleton] at h
      subst h
      rw [hi.dist]
      exact ⟨by simp [Spec.expWeights], expWeights_posProb S hi.ne _⟩

/-- C02: the weights handed out in a round are proportional to `exp(-y F(x))` where `F` is the vote
of all previous rounds, each hypothesis carrying the weight `½ ln((1+γ)/(1-γ))` for its edge `γ`. -/
theorem adaboost_weights_closed_form (S : Examples X ℝ) (s₀ : AdaBoost H)
    (wl : WeakLearner ℝ H) (n : Nat) (qs : List (List ℝ)) (s : AdaBoost H)
    (hr : (AdaBoost.booster S).Reachable wl s₀ n qs s) (out : BoostOut (AdaBoost H) ℝ)
    (hb : (AdaBoost.booster S).boost s wl (n + 1) = .ok out) (q : List ℝ) (hq : q ∈ out.queries) :
    s.hypotheses.length = n ∧ qs.length = n ∧
    s.weights = (Spec.edges S conf qs s.hypotheses).map (fun γ => log ((1 + γ) / (1 - γ)) / 2) ∧
    q = Spec.expWeights S (Spec.vote conf (List.zip s.weights s.hypotheses)) := by
  have hi := inv_of_reachable hr
  refine ⟨hi.hlen, hi.qlen, hi.weights, ?_⟩
  rcases boost_queries hb with ⟨_, h2⟩ | ⟨_, h2⟩
  · rw [h2] at hq; simp at hq
  · rw [h2] at hq
    simp only [List.mem_singleton] at hq
    rw [hq, hi.dist]
    congr 1; funext x; exact weightedConf_eq_vote _ _ _

/-- C03: after a round that continues, the hypothesis just received (when its margins are `±1`) has
edge exactly zero under the weights of the next round. -/
theorem adaboost_new_edge_zero (S : Examples X ℝ) (s₀ : AdaBoost H)
    (wl : WeakLearner ℝ H) (n : Nat) (qs : List (List ℝ)) (s : AdaBoost H)
    (hr : (AdaBoost.booster S).Reachable wl s₀ n qs s) (out : BoostOut (AdaBoost H) ℝ)
    (hb : (AdaBoost.booster S).boost s wl (n + 1) = .ok out) (hf : out.flow = .cont)
    (hpm : ∀ e ∈ S, e.2 * conf (wl (n + 1) s.dist) e.1 = 1 ∨ e.2 * conf (wl (n + 1) s.dist) e.1 = -1) :
    Spec.edge S out.state.dist (conf (wl (n + 1) s.dist)) = 0 := by
  have hi := inv_of_reachable hr
  obtain ⟨h1, h2, h3, h4⟩ := boost_cont hi.ne hi.dist hb hf
  set h := wl (n + 1) s.dist with hh
  set γ := Spec.edge S s.dist (conf h (X := X)) with hγ
  rw [h4]
  simp only []
  set F : X → ℝ := weightedConf (X := X) s.weights s.hypotheses with hF
  have hpF := expLoss_pos S hi.ne F
  have hedge : (S.map fun e => exp (-(e.2 * F e.1)) / expLoss S F * (e.2 * conf h e.1)).sum = γ := by
    rw [hγ, hi.dist, expWeights_eq, specEdge_map]
  have hsum1 : (S.map fun e => exp (-(e.2 * F e.1)) / expLoss S F).sum = 1 := by
    rw [sum_map_div]; exact div_self hpF.ne'
  rw [expWeights_eq, specEdge_map]
  have hb2 := abs_lt.1 h2
  have e1 : 0 < 1 + γ := by linarith
  have e2 : 0 < 1 - γ := by linarith
  -- the numerator
  have key : (S.map fun e => exp (-(e.2 * (F e.1 + hypWeight γ * conf h e.1))) *
      (e.2 * conf h e.1)).sum =
      expLoss S F * ((1 + γ) / 2 * exp (-hypWeight γ) - (1 - γ) / 2 * exp (hypWeight γ)) := by
    calc _ = (S.map fun e => expLoss S F * ((exp (-hypWeight γ) / 2 - exp (hypWeight γ) / 2) *
          (exp (-(e.2 * F e.1)) / expLoss S F) + (exp (-hypWeight γ) / 2 + exp (hypWeight γ) / 2) *
          (exp (-(e.2 * F e.1)) / expLoss S F * (e.2 * conf h e.1)))).sum := by
          congr 1
          apply List.map_congr_left
          intro e he
          have hx : exp (-(e.2 * (F e.1 + hypWeight γ * conf h e.1))) =
              exp (-(e.2 * F e.1)) * exp (-(hypWeight γ * (e.2 * conf h e.1))) := by
            rw [← exp_add]; congr 1; ring
          have hl : expLoss S F ≠ 0 := hpF.ne'
          rw [hx]
          rcases hpm e he with h | h
          · rw [h, mul_one, mul_one]; field_simp; ring
          · rw [h]
            simp only [mul_neg, mul_one, neg_neg]
            field_simp; ring
      _ = _ := by
          rw [sum_map_mul_left', sum_map_add', sum_map_mul_left', sum_map_mul_left', hedge, hsum1]
          ring
  have hzero : (1 + γ) / 2 * exp (-hypWeight γ) - (1 - γ) / 2 * exp (hypWeight γ) = 0 := by
    rw [exp_hypWeight h2, exp_neg_hypWeight h2, sqrt_div e1.le, sqrt_div e2.le]
    have p1 := sqrt_pos.2 e1
    have p2 := sqrt_pos.2 e2
    have s1 := sq_sqrt e1.le
    have s2 := sq_sqrt e2.le
    field_simp
    rw [s1, s2]; ring
  rw [hzero, mul_zero] at key
  calc _ = (S.map fun e => (exp (-(e.2 * (F e.1 + hypWeight γ * conf h e.1))) *
      (e.2 * conf h e.1)) / expLoss S (fun x => F x + hypWeight γ * conf h x)).sum := by
        congr 1; apply List.map_congr_left; intro e _; ring
    _ = 0 := by rw [sum_map_div, key, zero_div]

/-- The iteration limit in force: `force_quit_at` when set, else `⌊ln m / tolerance²⌋`. -/
noncomputable def adaboostLimit (S : Examples X ℝ) (s₀ : AdaBoost H) : Nat :=
  match s₀.forceQuitAt with
  | some it => it
  | none => ⌊log (S.length : ℝ) / s₀.tolerance ^ 2⌋₊

/-- C04: whatever the weak learner does, a run finishes after at most `limit + 1` calls of `boost`, and
the weak learner is called at most `limit` times at any moment of the run. -/
theorem adaboost_terminates (S : Examples X ℝ) (s₀ : AdaBoost H) (wl : WeakLearner ℝ H) :
    (∃ r, (AdaBoost.booster S).run wl (adaboostLimit S s₀ + 1) s₀ = some r) ∧
    (∀ n qs s out, (AdaBoost.booster S).Reachable wl s₀ n qs s →
      (AdaBoost.booster S).boost s wl (n + 1) = .ok out →
      (qs ++ out.queries).length ≤ adaboostLimit S s₀) := by
  constructor
  · apply Booster.run_terminates
    intro qs s₁ out hr hb hf
    have hi := inv_of_reachable hr
    have := (boost_cont hi.ne hi.dist hb hf).1
    have hm : s₁.maxIter = adaboostLimit S s₀ := hi.max
    omega
  · intro n qs s out hr hb
    have hi := inv_of_reachable hr
    have hm : s.maxIter = adaboostLimit S s₀ := hi.max
    have h1 := hi.le
    have h2 := hi.qlen
    rcases boost_queries hb with ⟨_, h⟩ | ⟨h', h⟩
    · rw [h]; simp; omega
    · rw [h]; simp; omega

/-- C04, run level: a finished run made at most `limit` weak-learner calls. -/
theorem adaboost_run_calls (S : Examples X ℝ) (s₀ : AdaBoost H) (wl : WeakLearner ℝ H) (fuel : Nat)
    (f : WeightedMajority ℝ H) (qs : List (List ℝ))
    (h : (AdaBoost.booster S).run wl fuel s₀ = some (.ok (f, qs))) :
    qs.length ≤ adaboostLimit S s₀ := by
  obtain ⟨n, qs', s', out, k, hr, _, hb, _, rfl, _⟩ := Booster.run_spec _ _ _ h
  exact (adaboost_terminates S s₀ wl).2 n qs' s' out hr hb

/-- C05: the training error of the combined hypothesis is at most `∏ sqrt(1 - γ_t²)`. -/
theorem adaboost_training_error (S : Examples X ℝ) (s₀ : AdaBoost H)
    (wl : WeakLearner ℝ H) (n : Nat) (qs : List (List ℝ)) (s : AdaBoost H)
    (hpm : Spec.PmLabels S) (hconf : ∀ k d, ∀ e ∈ S, |conf (wl k d) e.1| ≤ 1)
    (hr : (AdaBoost.booster S).Reachable wl s₀ n qs s)
    (hpos : ∀ γ ∈ Spec.edges S conf qs s.hypotheses, 0 < γ)
    (f : WeightedMajority ℝ H) (hf : (AdaBoost.booster S).postprocess s = .ok f) :
    (Spec.errors S (predict (K := ℝ) f) : ℝ) / S.length ≤
      ((Spec.edges S conf qs s.hypotheses).map fun γ => √(1 - γ ^ 2)).prod := by
  have hi := inv_of_reachable hr
  have hbd : ∀ k d, ∀ e ∈ S, |e.2 * conf (wl k d) e.1| ≤ 1 := by
    intro k d e he
    rw [abs_mul]
    have : |e.2| = 1 := by rcases hpm e he with h | h <;> rw [h] <;> simp
    rw [this, one_mul]; exact hconf k d e he
  have hL := expLoss_reachable hbd hr
  have hm : (0 : ℝ) < S.length := by exact_mod_cast List.length_pos_iff.2 hi.ne
  have hconf' := fun x => fromSlices_conf (X := X) hf x
  rw [kept_all hi hpos] at hconf'
  have hz : 0 < ((List.zip s.weights s.hypotheses).map Prod.fst).sum := by
    obtain ⟨e, he⟩ := List.exists_mem_of_ne_nil _ hi.ne
    exact (hconf' e.1).2
  have herr := errors_le_expLoss hpm f (weightedConf s.weights s.hypotheses) _ hz
    (fun x => by rw [(hconf' x).1, weightedConf_eq_vote])
  rw [div_le_iff₀ hm, mul_comm]
  exact herr.trans hL

/-- C05: with all edges at least `g > 0`, after more than `2 ln(m)/g²` rounds the combined hypothesis
makes no training error. -/
theorem adaboost_zero_error_after (S : Examples X ℝ) (s₀ : AdaBoost H)
    (wl : WeakLearner ℝ H) (n : Nat) (qs : List (List ℝ)) (s : AdaBoost H)
    (hpm : Spec.PmLabels S) (hconf : ∀ k d, ∀ e ∈ S, |conf (wl k d) e.1| ≤ 1)
    (hr : (AdaBoost.booster S).Reachable wl s₀ n qs s) (g : ℝ) (hg : 0 < g)
    (hpos : ∀ γ ∈ Spec.edges S conf qs s.hypotheses, g ≤ γ)
    (hn : 2 * log S.length < g ^ 2 * n)
    (f : WeightedMajority ℝ H) (hf : (AdaBoost.booster S).postprocess s = .ok f) :
    Spec.errors S (predict (K := ℝ) f) = 0 := by
  have hi := inv_of_reachable hr
  have h := adaboost_training_error S s₀ wl n qs s hpm hconf hr
    (fun γ hγ => hg.trans_le (hpos γ hγ)) f hf
  have h2 := prod_sqrt_le _ g hg.le hpos
  have hlen : (Spec.edges S conf qs s.hypotheses).length = n := by
    simp [Spec.edges, hi.qlen, hi.hlen]
  rw [hlen] at h2
  have hm : (0 : ℝ) < S.length := by exact_mod_cast List.length_pos_iff.2 hi.ne
  have h3 := h.trans h2
  rw [div_le_iff₀ hm] at h3
  have h4 : exp (-(n * (g ^ 2 / 2))) * S.length < 1 := by
    conv_lhs => rw [← exp_log hm]
    rw [← exp_add, ← exp_zero]
    apply exp_lt_exp.2
    nlinarith
  have h5 : (Spec.errors S (predict (K := ℝ) f) : ℝ) < 1 := h3.trans_lt h4
  have h6 : Spec.errors S (predict (K := ℝ) f) < 1 := by exact_mod_cast h5
  omega

/-- C06: if the weak learner returns a hypothesis of edge at least 1, AdaBoost stops at once and returns
exactly that hypothesis. -/
theorem adaboost_perfect_hypothesis (S : Examples X ℝ) (s₀ : AdaBoost H)
    (wl : WeakLearner ℝ H) (n : Nat) (qs : List (List ℝ)) (s : AdaBoost H)
    (_hr : (AdaBoost.booster S).Reachable wl s₀ n qs s) (hn : n + 1 ≤ s.maxIter)
    (hedge : 1 ≤ Spec.edge S s.dist (conf (wl (n + 1) s.dist))) :
    ∃ out, (AdaBoost.booster S).boost s wl (n + 1) = .ok out ∧ out.flow = .brk (n + 1) ∧
      (AdaBoost.booster S).postprocess out.state = .ok ⟨[1], [wl (n + 1) s.dist]⟩ := by
  have habs : 1 ≤ |Spec.edge S s.dist (conf (wl (n + 1) s.dist))| := hedge.trans (le_abs_self _)
  refine ⟨⟨{ s with terminated := n + 1, weights := [1], hypotheses := [wl (n + 1) s.dist] },
    .brk (n + 1), [s.dist]⟩, ?_, rfl, ?_⟩
  · simp only [AdaBoost.booster, AdaBoost.boost, margins_def, innerProduct_eq_zip]
    rw [if_neg (by omega), if_pos habs, signum, if_pos (by linarith)]
  · simp only [AdaBoost.booster, AdaBoost.postprocess, WeightedMajority.fromSlices, normalize]
    simp

/-- C06 / C05: a hypothesis with edge at least 1 and confidences in `[-1,1]` makes no training error, so
the shortcut returns a perfect classifier. -/
theorem adaboost_perfect_hypothesis_no_error (S : Examples X ℝ) (s₀ : AdaBoost H)
    (wl : WeakLearner ℝ H) (n : Nat) (qs : List (List ℝ)) (s : AdaBoost H)
    (hpm : Spec.PmLabels S)
    (hr : (AdaBoost.booster S).Reachable wl s₀ n qs s)
    (hconf : ∀ e ∈ S, |conf (wl (n + 1) s.dist) e.1| ≤ 1)
    (hedge : 1 ≤ Spec.edge S s.dist (conf (wl (n + 1) s.dist))) :
    Spec.errors S (predict (K := ℝ) (⟨[1], [wl (n + 1) s.dist]⟩ : WeightedMajority ℝ H)) = 0 := by
  have hi := inv_of_reachable hr
  set F : X → ℝ := weightedConf (X := X) s.weights s.hypotheses with hF
  have hp := expLoss_pos S hi.ne F
  have hdist := hi.dist
  rw [expWeights_eq] at hdist
  rw [hdist] at hedge
  rw [hdist] at hconf
  rw [hdist]
  have hall := all_margins_one S _ (fun e _ => div_pos (exp_pos _) hp)
    (by rw [sum_map_div]; exact div_self hp.ne') _ (by
      intro e he
      have h1 := abs_le.1 (hconf e he)
      rcases hpm e he with h | h <;> rw [h] <;> linarith) hedge
  unfold Spec.errors
  rw [List.countP_eq_zero]
  intro e he
  have h1 := hall e he
  simp only [decide_eq_true_eq, not_not]
  unfold predict
  have hc : conf (⟨[1], [wl (n + 1) (S.map fun e => exp (-(e.2 * F e.1)) / expLoss S F)]⟩ :
      WeightedMajority ℝ H) e.1 = conf (wl (n + 1) (S.map fun e => exp (-(e.2 * F e.1)) / expLoss S F)) e.1 := by
    rw [conf_weightedMajority]; simp [Spec.vote]
  rw [hc]
  rcases hpm e he with h | h
  · rw [h, one_mul] at h1
    rw [if_pos (by rw [h1]; norm_num), h]; norm_num
  · rw [h] at h1
    rw [if_neg (by
      intro h0
      have h2 : (-1 : ℝ) * conf (wl (n + 1) (S.map fun e => exp (-(e.2 * F e.1)) / expLoss S F)) e.1 ≤ 0 := by
        linarith
      linarith), h]; norm_num

/-- C06, negation: a hypothesis of edge `≤ -1` (wrong on every example) is not used with its sign
flipped; the run aborts with a panic in the final construction. -/
theorem adaboost_perfectly_wrong_hypothesis_panics (S : Examples X ℝ) (s₀ : AdaBoost H)
    (wl : WeakLearner ℝ H) (n : Nat) (qs : List (List ℝ)) (s : AdaBoost H)
    (_hr : (AdaBoost.booster S).Reachable wl s₀ n qs s) (hn : n + 1 ≤ s.maxIter)
    (hedge : Spec.edge S s.dist (conf (wl (n + 1) s.dist)) ≤ -1) :
    ∃ out, (AdaBoost.booster S).boost s wl (n + 1) = .ok out ∧ out.flow = .brk (n + 1) ∧
      (AdaBoost.booster S).postprocess out.state = .error .assertion := by
  have habs : 1 ≤ |Spec.edge S s.dist (conf (wl (n + 1) s.dist))| := by
    rw [abs_of_nonpos (by linarith)]; linarith
  refine ⟨⟨{ s with terminated := n + 1, weights := [-1], hypotheses := [wl (n + 1) s.dist] },
    .brk (n + 1), [s.dist]⟩, ?_, rfl, ?_⟩
  · simp only [AdaBoost.booster, AdaBoost.boost, margins_def, innerProduct_eq_zip]
    rw [if_neg (by omega), if_pos habs, signum, if_neg (by linarith)]
  · simp only [AdaBoost.booster, AdaBoost.postprocess, WeightedMajority.fromSlices, normalize]
    simp

/-- C06/C61: between rounds, the combined hypothesis can be built (by `postprocess` or by
`current_hypothesis`) exactly when some round so far had a positive edge; otherwise the code panics. -/
theorem adaboost_postprocess_ok_iff (S : Examples X ℝ) (s₀ : AdaBoost H)
    (wl : WeakLearner ℝ H) (n : Nat) (qs : List (List ℝ)) (s : AdaBoost H)
    (hr : (AdaBoost.booster S).Reachable wl s₀ n qs s) :
    (∃ f, (AdaBoost.booster S).postprocess s = .ok f) ↔
      ∃ γ ∈ Spec.edges S conf qs s.hypotheses, 0 < γ := by
  have hi := inv_of_reachable hr
  rw [show (AdaBoost.booster S).postprocess s =
    WeightedMajority.fromSlices s.weights s.hypotheses from rfl, fromSlices_ok_iff]
  constructor
  · rintro ⟨p, hp, hpos⟩
    have : p.1 ∈ s.weights := (List.of_mem_zip hp).1
    rw [hi.weights] at this
    obtain ⟨γ, hγ, h⟩ := List.mem_map.1 this
    rw [← h] at hpos
    exact ⟨γ, hγ, (hypWeight_pos_iff (hi.edges γ hγ)).1 hpos⟩
  · rintro ⟨γ, hγ, hpos⟩
    have : hypWeight γ ∈ s.weights := by rw [hi.weights]; exact List.mem_map.2 ⟨γ, hγ, rfl⟩
    obtain ⟨i, hi', hget⟩ := List.getElem_of_mem this
    have hl : i < s.hypotheses.length := by rw [hi.hlen, ← hi.wlen]; exact hi'
    refine ⟨(s.weights[i], s.hypotheses[i]), ?_, ?_⟩
    · rw [List.mem_iff_getElem]
      exact ⟨i, by simp [hi', hl], by simp⟩
    · rw [hget]; exact (hypWeight_pos_iff (hi.edges γ hγ)).2 hpos

/-- C05/C61, end to end: on a valid `±1` sample, with a weak learner that always returns a hypothesis with
confidences in `[-1,1]` and edge at least `g > 0`, and an iteration limit larger than `2 ln(m)/g²`,
`run` terminates without panic and returns a hypothesis without training error. -/
theorem adaboost_run_zero_error (S : Examples X ℝ) (s₀ : AdaBoost H) (wl : WeakLearner ℝ H)
    (hvalid : checkBinary S = .ok ()) (hpm : Spec.PmLabels S)
    (hconf : ∀ k d, ∀ e ∈ S, |conf (wl k d) e.1| ≤ 1) (g : ℝ) (hg : 0 < g)
    (hwl : ∀ k d, d.length = S.length → Spec.IsPosProb d → g ≤ Spec.edge S d (conf (wl k d)))
    (hlim : 2 * log S.length < g ^ 2 * adaboostLimit S s₀) :
    ∃ f qs, (AdaBoost.booster S).run wl (adaboostLimit S s₀ + 1) s₀ = some (.ok (f, qs)) ∧
      Spec.errors S (predict (K := ℝ) f) = 0 := by
  obtain ⟨r, hrun⟩ := (adaboost_terminates S s₀ wl).1
  -- edges of reachable histories
  have hedges : ∀ n qs s, (AdaBoost.booster S).Reachable wl s₀ n qs s →
      ∀ γ ∈ Spec.edges S conf qs s.hypotheses, g ≤ γ := by
    intro n qs s hr
    induction hr with
    | start hp =>
      have hi := inv_of_reachable (Booster.Reachable.start (B := AdaBoost.booster S) (wl := wl) hp)
      simp [Spec.edges]
    | @step n qs s₁ out hr hb hf ih =>
      have hi := inv_of_reachable hr
      obtain ⟨h1, h2, h3, h4⟩ := boost_cont hi.ne hi.dist hb hf
      rw [h3, h4]
      simp only [edges_append S qs s₁.hypotheses (by rw [hi.qlen, hi.hlen])]
      intro γ hγ
      rcases List.mem_append.1 hγ with h | h
      · exact ih γ h
      · simp only [List.mem_singleton] at h
        rw [h]
        have hd := hi.dist
        apply hwl
        · rw [hd]; simp [Spec.expWeights]
        · rw [hd]; exact expWeights_posProb S hi.ne _
  unfold Booster.run at hrun ⊢
  have hpre : ∃ s', (AdaBoost.booster S).preprocess s₀ wl = .ok s' := by
    simp only [AdaBoost.booster, AdaBoost.preprocess, hvalid]; exact ⟨_, rfl⟩
  obtain ⟨s', hs'⟩ := hpre
  have hne : S ≠ [] := checkBinary_ne_nil hvalid
  have hlog : 0 ≤ log (S.length : ℝ) := by
    apply log_nonneg
    have : 1 ≤ S.length := List.length_pos_iff.2 hne
    exact_mod_cast this
  simp only [hs'] at hrun ⊢
  cases hl : (AdaBoost.booster S).loop wl (adaboostLimit S s₀ + 1) s' 1 with
  | none => simp [hl] at hrun
  | some r' =>
    rcases Booster.loop_spec _ wl s₀ (Booster.Reachable.start hs') hl with
      ⟨n', qs', s'', h1, h2, e, h3, h4⟩ | ⟨n', qs', s'', out, k, h1, h2, h3, h4, qs, h5, h6⟩
    · -- boost never panics in a reachable state
      exfalso
      have hi := inv_of_reachable h1
      simp only [AdaBoost.booster, AdaBoost.boost, updateParams, margins_def, innerProduct_eq_zip] at h3
      split at h3
      · simp at h3
      · split at h3
        · simp at h3
        · have hrw := reweight_expWeights S hi.ne (weightedConf s''.weights s''.hypotheses)
            (conf (wl (n' + 1) s''.dist))
            (hypWeight (Spec.edge S s''.dist (conf (wl (n' + 1) s''.dist))))
          rw [← hi.dist] at hrw
          rw [hrw] at h3
          simp at h3
    · subst h6
      simp only []
      have hi := inv_of_reachable h1
      have hmax : s''.maxIter = adaboostLimit S s₀ := hi.max
      by_cases hlt : s''.maxIter < n' + 1
      · -- iteration limit reached
        have hn : n' = adaboostLimit S s₀ := by
          have := hi.le; omega
        have hout : out.state = s'' := by
          simp only [AdaBoost.booster, AdaBoost.boost, if_pos hlt, Except.ok.injEq] at h3
          rw [← h3]
        have hpos : ∃ γ ∈ Spec.edges S conf qs' s''.hypotheses, 0 < γ := by
          have hlen : (Spec.edges S conf qs' s''.hypotheses).length = n' := by
            simp [Spec.edges, hi.qlen, hi.hlen]
          have hn0 : 0 < n' := by
            rcases Nat.eq_zero_or_pos n' with h | h
            · rw [← hn, h] at hlim; push_cast at hlim; linarith
            · exact h
          obtain ⟨γ, hγ⟩ := List.exists_mem_of_ne_nil (Spec.edges S conf qs' s''.hypotheses)
            (by rw [← List.length_pos_iff, hlen]; exact hn0)
          exact ⟨γ, hγ, hg.trans_le (hedges _ _ _ h1 γ hγ)⟩
        obtain ⟨f, hf⟩ := (adaboost_postprocess_ok_iff S s₀ wl n' qs' s'' h1).2 hpos
        rw [hout, hf]
        refine ⟨f, qs, rfl, ?_⟩
        exact adaboost_zero_error_after S s₀ wl n' qs' s'' hpm hconf h1 g hg (hedges _ _ _ h1)
          (by rw [hn]; exact hlim) f hf
      · -- shortcut
        have hle : n' + 1 ≤ s''.maxIter := by omega
        have hedge : 1 ≤ Spec.edge S s''.dist (conf (wl (n' + 1) s''.dist)) := by
          have hge := hwl (n' + 1) s''.dist (by rw [hi.dist]; simp [Spec.expWeights])
            (by rw [hi.dist]; exact expWeights_posProb S hi.ne _)
          by_contra hcon
          have hlt1 : |Spec.edge S s''.dist (conf (wl (n' + 1) s''.dist))| < 1 := by
            rw [abs_of_pos (by linarith)]; linarith
          simp only [AdaBoost.booster, AdaBoost.boost, updateParams, margins_def, innerProduct_eq_zip] at h3
          rw [if_neg hlt, if_neg (not_le.2 hlt1)] at h3
          have hrw := reweight_expWeights S hi.ne (weightedConf s''.weights s''.hypotheses)
            (conf (wl (n' + 1) s''.dist))
            (hypWeight (Spec.edge S s''.dist (conf (wl (n' + 1) s''.dist))))
          rw [← hi.dist] at hrw
          rw [hrw] at h3
          simp only [Except.ok.injEq] at h3
          rw [← h3] at h4
          simp at h4
        obtain ⟨out', ho1, ho2, ho3⟩ :=
          adaboost_perfect_hypothesis S s₀ wl n' qs' s'' h1 hle hedge
        rw [ho1, Except.ok.injEq] at h3
        subst h3
        rw [ho3]
        exact ⟨_, qs, rfl, adaboost_perfect_hypothesis_no_error S s₀ wl n' qs' s'' hpm h1
          (hconf _ _) hedge⟩

/-- C52 for AdaBoost: whatever state earlier runs left behind, the result of `run` depends only on the
sample, the weak learner, the tolerance and `force_quit_at`. -/
theorem adaboost_run_history_independent (S : Examples X ℝ) (s t : AdaBoost H)
    (htol : s.tolerance = t.tolerance) (hq : s.forceQuitAt = t.forceQuitAt)
    (wl : WeakLearner ℝ H) (fuel : Nat) :
    (AdaBoost.booster S).run wl fuel s = (AdaBoost.booster S).run wl fuel t := by
  apply Booster.run_congr (AdaBoost.booster S) wl
    (fun a b => a.dist = b.dist ∧ a.weights = b.weights ∧ a.hypotheses = b.hypotheses ∧
      a.maxIter = b.maxIter)
  · rintro a b it ⟨h1, h2, h3, h4⟩
    simp only [AdaBoost.booster, AdaBoost.boost, h1, h2, h3, h4]
    split
    · exact .inr ⟨_, _, rfl, rfl, rfl, rfl, h1, h2, h3, h4⟩
    · split
      · exact .inr ⟨_, _, rfl, rfl, rfl, rfl, rfl, rfl, rfl, rfl⟩
      · cases updateParams b.dist (margins S (wl it b.dist))
            (innerProduct (margins S (wl it b.dist)) b.dist) with
        | error e => exact .inl ⟨e, rfl, rfl⟩
        | ok p => exact .inr ⟨_, _, rfl, rfl, rfl, rfl, rfl, rfl, rfl, rfl⟩
  · rintro a b ⟨h1, h2, h3, h4⟩
    simp only [AdaBoost.booster, AdaBoost.postprocess, h2, h3]
  · simp only [AdaBoost.booster, AdaBoost.preprocess]
    cases checkBinary S with
    | error e => exact .inl ⟨e, rfl, rfl⟩
    | ok u =>
      refine .inr ⟨_, _, rfl, rfl, rfl, rfl, rfl, ?_⟩
      simp only [maxLoop, htol, hq]

section nonvacuity

/-- A concrete sample: two rows with labels `+1`, `-1`. -/
def exSample : Examples Nat ℝ := [(0, 1), (1, -1)]

/-- A concrete weak learner: half-confident but always right. -/
noncomputable def exLearner : WeakLearner ℝ (Fn Nat ℝ) :=
  fun _ _ => ⟨fun x => if x = 0 then 1 / 2 else -1 / 2⟩

/-- AdaBoost limited to six rounds. -/
noncomputable def exBooster : AdaBoost (Fn Nat ℝ) := (AdaBoost.init exSample).setForceQuitAt 6

theorem exSample_valid : checkBinary exSample = .ok () := by
  have h0 : ¬ ((0 : ℝ) ≤ -1) := by norm_num
  have h1 : ⌈(-1 : ℝ)⌉ = -1 := by
    have := Int.ceil_intCast (R := ℝ) (-1); simpa using this
  simp [checkBinary, isValidBinary, exSample, trunc, asI32, h0, h1]

theorem exLearner_edge (k : Nat) (d : List ℝ) (hl : d.length = exSample.length)
    (hd : Spec.IsPosProb d) : Spec.edge exSample d (conf (exLearner k d)) = 1 / 2 := by
  obtain ⟨hpos, hsum⟩ := hd
  match d, hl with
  | [a, b], _ =>
    simp only [List.sum_cons, List.sum_nil, add_zero] at hsum
    simp [Spec.edge, exSample, exLearner, conf]
    linarith

/-- The hypotheses of the AdaBoost theorems are met in a five-round history. -/
example : ∃ qs s, (AdaBoost.booster exSample).Reachable exLearner exBooster 5 qs s :=
  AdaBoost.exists_reachable exSample exBooster exLearner exSample_valid
    (fun k d hl hd => by rw [exLearner_edge k d hl hd, abs_of_pos] <;> norm_num) 5 (by
      simp [exBooster, AdaBoost.setForceQuitAt])

/-- The hypotheses of the end-to-end theorem are met by a run that does not use the shortcut. -/
example : ∃ f qs, (AdaBoost.booster exSample).run exLearner (6 + 1) exBooster = some (.ok (f, qs)) ∧
    Spec.errors exSample (predict (K := ℝ) f) = 0 := by
  refine adaboost_run_zero_error exSample exBooster exLearner exSample_valid ?_ ?_ (1 / 2)
    (by norm_num) ?_ ?_
  · intro e he; simp [exSample] at he; rcases he with rfl | rfl <;> simp
  · intro k d e he
    simp [exSample] at he
    rcases he with rfl | rfl
    · simp only [exLearner, conf, if_true]; rw [abs_of_pos] <;> norm_num
    · simp only [exLearner, conf]; norm_num [abs_of_neg]
  · intro k d hl hd; rw [exLearner_edge k d hl hd]
  · have hlim : adaboostLimit exSample exBooster = 6 := rfl
    have h2 := Real.log_two_lt_d9
    rw [hlim]
    simp only [exSample, List.length_cons, List.length_nil]
    norm_num
    linarith

end nonvacuity

end Miniboosts.Props
