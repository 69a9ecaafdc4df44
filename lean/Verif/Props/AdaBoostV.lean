import Verif.Props.AdaBoost
import Verif.Lemmas.AdaBoostV

/-! # Properties of AdaBoostV (C07, C52, C61, C62) -/

namespace Miniboosts.Props

open Real AdaBoostV

variable {H X : Type*} [Classifier H X ℝ]

/-- The iteration limit in force: `force_quit_at` when set, else `⌊2 ln m / tolerance²⌋`. -/
noncomputable def adaboostvLimit (S : Examples X ℝ) (s₀ : AdaBoostV H) : Nat :=
  match s₀.forceQuitAt with
  | some it => it
  | none => ⌊2 * log (S.length : ℝ) / s₀.tolerance ^ 2⌋₊

/-- C07: every weight vector AdaBoostV hands to the weak learner, in any round of any run, has one strictly
positive entry per training example and sums to one. -/
theorem adaboostv_queries_are_distributions (S : Examples X ℝ) (s₀ : AdaBoostV H)
    (wl : WeakLearner ℝ H) (n : Nat) (qs : List (List ℝ)) (s : AdaBoostV H)
    (hr : (AdaBoostV.booster S).Reachable wl s₀ n qs s) (out : BoostOut (AdaBoostV H) ℝ)
    (hb : (AdaBoostV.booster S).boost s wl (n + 1) = .ok out) :
    ∀ q ∈ qs ++ out.queries, q.length = S.length ∧ Spec.IsPosProb q := by
  have hi := inv_of_reachable hr
  intro q hq
  rcases List.mem_append.1 hq with h | h
  · exact hi.q q h
  · rcases boost_queries hb with ⟨_, h2⟩ | ⟨_, h2⟩
    · rw [h2] at h; simp at h
    · rw [h2] at h
      simp only [List.mem_singleton] at h
      subst h
      rw [hi.dist]
      exact ⟨by simp [Spec.expWeights], expWeights_posProb S hi.ne _⟩

/-- C07: the weights handed out are the exponential weights of the vote accumulated so far. -/
theorem adaboostv_weights_closed_form (S : Examples X ℝ) (s₀ : AdaBoostV H)
    (wl : WeakLearner ℝ H) (n : Nat) (qs : List (List ℝ)) (s : AdaBoostV H)
    (hr : (AdaBoostV.booster S).Reachable wl s₀ n qs s) (out : BoostOut (AdaBoostV H) ℝ)
    (hb : (AdaBoostV.booster S).boost s wl (n + 1) = .ok out) (q : List ℝ) (hq : q ∈ out.queries) :
    q = Spec.expWeights S (Spec.vote conf (List.zip s.weights s.hypotheses)) := by
  have hi := inv_of_reachable hr
  rcases boost_queries hb with ⟨_, h2⟩ | ⟨_, h2⟩
  · rw [h2] at hq; simp at hq
  · rw [h2] at hq
    simp only [List.mem_singleton] at hq
    rw [hq, hi.dist]
    congr 1; funext x; exact weightedConf_eq_vote _ _ _

/-- C07: whatever the weak learner does, a run finishes after at most `limit + 1` calls of `boost`, and
the weak learner is called at most `limit` times at any moment of the run. -/
theorem adaboostv_terminates (S : Examples X ℝ) (s₀ : AdaBoostV H) (wl : WeakLearner ℝ H) :
    (∃ r, (AdaBoostV.booster S).run wl (adaboostvLimit S s₀ + 1) s₀ = some r) ∧
    (∀ n qs s out, (AdaBoostV.booster S).Reachable wl s₀ n qs s →
      (AdaBoostV.booster S).boost s wl (n + 1) = .ok out →
      (qs ++ out.queries).length ≤ adaboostvLimit S s₀) := by
  constructor
  · apply Booster.run_terminates
    intro qs s₁ out hr hb hf
    have hi := inv_of_reachable hr
    have := (boost_cont hi.ne hi.dist hb hf).1
    have hm : s₁.maxIter = adaboostvLimit S s₀ := hi.max
    omega
  · intro n qs s out hr hb
    have hi := inv_of_reachable hr
    have hm : s.maxIter = adaboostvLimit S s₀ := hi.max
    have h1 := hi.le
    have h2 := hi.qlen
    rcases boost_queries hb with ⟨_, h⟩ | ⟨h', h⟩
    · rw [h]; simp; omega
    · rw [h]; simp; omega

/-- C07, run level: a finished run made at most `limit` weak-learner calls. -/
theorem adaboostv_run_calls (S : Examples X ℝ) (s₀ : AdaBoostV H) (wl : WeakLearner ℝ H) (fuel : Nat)
    (f : WeightedMajority ℝ H) (qs : List (List ℝ))
    (h : (AdaBoostV.booster S).run wl fuel s₀ = some (.ok (f, qs))) :
    qs.length ≤ adaboostvLimit S s₀ := by
  obtain ⟨n, qs', s', out, k, hr, _, hb, _, rfl, _⟩ := Booster.run_spec _ _ _ h
  exact (adaboostv_terminates S s₀ wl).2 n qs' s' out hr hb

/-- C07: the margin target after `n ≥ 1` rounds is the smallest edge seen so far (never more than 1) minus
the tolerance, and a continuing round never raises it. -/
theorem adaboostv_target (S : Examples X ℝ) (s₀ : AdaBoostV H)
    (wl : WeakLearner ℝ H) (n : Nat) (qs : List (List ℝ)) (s : AdaBoostV H)
    (hr : (AdaBoostV.booster S).Reachable wl s₀ n qs s) (hn : 0 < n) :
    (∀ γ ∈ Spec.edges S conf qs s.hypotheses, s.rho ≤ γ - s₀.tolerance) ∧
    (∃ γ ∈ Spec.edges S conf qs s.hypotheses, s.rho = γ - s₀.tolerance) ∧
    (∀ out, (AdaBoostV.booster S).boost s wl (n + 1) = .ok out → out.flow = .cont →
      out.state.rho ≤ s.rho) := by
  have hi := inv_of_reachable hr
  have hrho : s.rho = s.gamma - s.tolerance := by
    rcases hi.rho with ⟨h, _⟩ | ⟨_, h, _⟩
    · omega
    · exact h
  have hfold : ∀ l : List ℝ, (∀ γ ∈ l, l.foldr min 1 ≤ γ) ∧
      (l ≠ [] → (∀ γ ∈ l, γ < 1) → ∃ γ ∈ l, l.foldr min 1 = γ) := by
    intro l
    induction l with
    | nil => simp
    | cons a l ih =>
      constructor
      · intro γ hγ
        rcases List.mem_cons.1 hγ with rfl | h
        · exact min_le_left _ _
        · exact (min_le_right _ _).trans (ih.1 γ h)
      · intro _ hlt
        by_cases hl : l = []
        · subst hl
          refine ⟨a, by simp, ?_⟩
          simp only [List.foldr_cons, List.foldr_nil]
          exact min_eq_left (hlt a (by simp)).le
        · obtain ⟨γ, hγ, he⟩ := ih.2 hl (fun γ h => hlt γ (by simp [h]))
          simp only [List.foldr_cons, he]
          rcases min_choice a γ with h | h
          · exact ⟨a, by simp, h⟩
          · exact ⟨γ, by simp [hγ], h⟩
  have hlen : (Spec.edges S conf qs s.hypotheses).length = n := by
    simp [Spec.edges, hi.qlen, hi.hlen]
  refine ⟨?_, ?_, ?_⟩
  · intro γ hγ
    have := (hfold _).1 γ hγ
    rw [← hi.gamma] at this
    rw [hrho, hi.tol]; linarith
  · obtain ⟨γ, hγ, he⟩ := (hfold (Spec.edges S conf qs s.hypotheses)).2
      (by rw [← List.length_pos_iff, hlen]; exact hn) (fun γ h => (abs_lt.1 (hi.edges γ h)).2)
    exact ⟨γ, hγ, by rw [hrho, hi.tol, hi.gamma, he]⟩
  · intro out hb hf
    obtain ⟨_, _, _, _, _, h⟩ := boost_cont hi.ne hi.dist hb hf
    rw [h, hrho]
    simp only []
    have := min_le_right (Spec.edge S s.dist (conf (wl (n + 1) s.dist))) s.gamma
    linarith

/-- C62 (main margin inequality): after `n ≥ 1` rounds the unnormalised vote `F = Σ w_j h_j` satisfies
`y F(x) ≥ ρ Σ w_j + n ν²/2 - ln m` on every training example, where `ν` is the tolerance and `ρ` the
smallest edge so far minus `ν`. -/
theorem adaboostv_vote_margin (S : Examples X ℝ) (s₀ : AdaBoostV H)
    (wl : WeakLearner ℝ H) (n : Nat) (qs : List (List ℝ)) (s : AdaBoostV H)
    (hpm : Spec.PmLabels S) (hconf : ∀ k d, ∀ e ∈ S, |conf (wl k d) e.1| ≤ 1)
    (htol : 0 ≤ s₀.tolerance)
    (hr : (AdaBoostV.booster S).Reachable wl s₀ n qs s) (e : X × ℝ) (he : e ∈ S) :
    s.rho * s.weights.sum + n * (s₀.tolerance ^ 2 / 2) - log S.length ≤
      e.2 * Spec.vote conf (List.zip s.weights s.hypotheses) e.1 := by
  have hi := inv_of_reachable hr
  have hbd : ∀ k d, ∀ e ∈ S, |e.2 * conf (wl k d) e.1| ≤ 1 := by
    intro k d e he
    rw [abs_mul]
    have : |e.2| = 1 := by rcases hpm e he with h | h <;> rw [h] <;> simp
    rw [this, one_mul]; exact hconf k d e he
  have hp := (potential hbd htol hr).2
  have hm : (0 : ℝ) < S.length := by exact_mod_cast List.length_pos_iff.2 hi.ne
  rw [← weightedConf_eq_vote]
  have h1 : exp (-(e.2 * weightedConf s.weights s.hypotheses e.1)) ≤
      expLoss S (weightedConf s.weights s.hypotheses) :=
    single_le_sum_map S (fun e => exp (-(e.2 * weightedConf s.weights s.hypotheses e.1)))
      (fun _ _ => (exp_pos _).le) he
  have h2 := (mul_le_mul_of_nonneg_right h1 (exp_pos (s.rho * s.weights.sum)).le).trans hp
  rw [← exp_add] at h2
  have h3 : (S.length : ℝ) * exp (-(n * (s₀.tolerance ^ 2 / 2))) =
      exp (log S.length + -(n * (s₀.tolerance ^ 2 / 2))) := by
    rw [exp_add, exp_log hm]
  rw [h3] at h2
  have := exp_le_exp.1 h2
  linarith

/-- The combined hypothesis keeps every round and divides the vote by the total weight. -/
theorem adaboostv_output (S : Examples X ℝ) (s₀ : AdaBoostV H)
    (wl : WeakLearner ℝ H) (n : Nat) (qs : List (List ℝ)) (s : AdaBoostV H)
    (hpm : Spec.PmLabels S) (hconf : ∀ k d, ∀ e ∈ S, |conf (wl k d) e.1| ≤ 1)
    (htol : 0 < s₀.tolerance) (hn : 0 < n)
    (hr : (AdaBoostV.booster S).Reachable wl s₀ n qs s) :
    (n : ℝ) * s₀.tolerance ≤ s.weights.sum ∧
    ∃ f, (AdaBoostV.booster S).postprocess s = .ok f ∧
      ∀ x : X, conf f x = Spec.vote conf (List.zip s.weights s.hypotheses) x / s.weights.sum := by
  have hi := inv_of_reachable hr
  have hbd : ∀ k d, ∀ e ∈ S, |e.2 * conf (wl k d) e.1| ≤ 1 := by
    intro k d e he
    rw [abs_mul]
    have : |e.2| = 1 := by rcases hpm e he with h | h <;> rw [h] <;> simp
    rw [this, one_mul]; exact hconf k d e he
  have hw := (potential hbd htol.le hr).1
  have hkeep : (List.zip s.weights s.hypotheses).filter (fun p => decide (0 < p.1)) =
      List.zip s.weights s.hypotheses := by
    rw [List.filter_eq_self]
    intro p hp
    simp only [decide_eq_true_eq]
    exact htol.trans_le (hw p.1 (List.of_mem_zip hp).1)
  have hfst : (List.zip s.weights s.hypotheses).map Prod.fst = s.weights :=
    List.map_fst_zip (by rw [hi.wlen, hi.hlen])
  constructor
  · have h := List.card_nsmul_le_sum s.weights s₀.tolerance hw
    rw [hi.wlen, nsmul_eq_mul] at h
    exact h
  · have hex : ∃ f, (AdaBoostV.booster S).postprocess s = .ok f := by
      rw [show (AdaBoostV.booster S).postprocess s =
        WeightedMajority.fromSlices s.weights s.hypotheses from rfl, fromSlices_ok_iff]
      have hl : 0 < s.weights.length := by rw [hi.wlen]; exact hn
      have hl' : 0 < s.hypotheses.length := by rw [hi.hlen]; exact hn
      refine ⟨(s.weights[0], s.hypotheses[0]), ?_, htol.trans_le (hw _ (List.getElem_mem _))⟩
      rw [List.mem_iff_getElem]
      exact ⟨0, by simp [hl, hl'], by simp⟩
    obtain ⟨f, hf⟩ := hex
    refine ⟨f, hf, fun x => ?_⟩
    have := (fromSlices_conf (X := X) hf x).1
    rw [hkeep, hfst] at this
    exact this

/-- C62: with all edges at least `g`, after `n ≥ 2 ln(m)/ν²` (and at least one) rounds every training
example has normalised margin at least `g - ν`. -/
theorem adaboostv_margin (S : Examples X ℝ) (s₀ : AdaBoostV H)
    (wl : WeakLearner ℝ H) (n : Nat) (qs : List (List ℝ)) (s : AdaBoostV H)
    (hpm : Spec.PmLabels S) (hconf : ∀ k d, ∀ e ∈ S, |conf (wl k d) e.1| ≤ 1)
    (htol : 0 < s₀.tolerance) (hn0 : 0 < n)
    (hr : (AdaBoostV.booster S).Reachable wl s₀ n qs s) (g : ℝ)
    (hg : ∀ γ ∈ Spec.edges S conf qs s.hypotheses, g ≤ γ)
    (hn : 2 * log S.length ≤ s₀.tolerance ^ 2 * n)
    (f : WeightedMajority ℝ H) (hf : (AdaBoostV.booster S).postprocess s = .ok f)
    (e : X × ℝ) (he : e ∈ S) : g - s₀.tolerance ≤ e.2 * conf f e.1 := by
  obtain ⟨hW, f', hf', hc⟩ := adaboostv_output S s₀ wl n qs s hpm hconf htol hn0 hr
  rw [hf, Except.ok.injEq] at hf'; subst hf'
  have hn1 : (0 : ℝ) < n := by exact_mod_cast hn0
  have hWpos : 0 < s.weights.sum := lt_of_lt_of_le (by positivity) hW
  have hv := adaboostv_vote_margin S s₀ wl n qs s hpm hconf htol.le hr e he
  obtain ⟨γ, hγ, hrho⟩ := (adaboostv_target S s₀ wl n qs s hr hn0).2.1
  have hge := hg γ hγ
  rw [hc, ← mul_div_assoc, le_div_iff₀ hWpos]
  have : (g - s₀.tolerance) * s.weights.sum ≤ s.rho * s.weights.sum :=
    mul_le_mul_of_nonneg_right (by rw [hrho]; linarith) hWpos.le
  linarith

/-- C62, at the code's own limit `⌊2 ln m/ν²⌋` (which may be short of `2 ln m/ν²` by a fraction of a round):
the margin guarantee loses at most `ν/(2n)`. -/
theorem adaboostv_margin_at_limit (S : Examples X ℝ) (s₀ : AdaBoostV H)
    (wl : WeakLearner ℝ H) (qs : List (List ℝ)) (s : AdaBoostV H)
    (hpm : Spec.PmLabels S) (hconf : ∀ k d, ∀ e ∈ S, |conf (wl k d) e.1| ≤ 1)
    (htol : 0 < s₀.tolerance) (hq : s₀.forceQuitAt = none) (hn0 : 0 < adaboostvLimit S s₀)
    (hr : (AdaBoostV.booster S).Reachable wl s₀ (adaboostvLimit S s₀) qs s) (g : ℝ)
    (hg : ∀ γ ∈ Spec.edges S conf qs s.hypotheses, g ≤ γ)
    (f : WeightedMajority ℝ H) (hf : (AdaBoostV.booster S).postprocess s = .ok f)
    (e : X × ℝ) (he : e ∈ S) :
    g - s₀.tolerance - s₀.tolerance / (2 * adaboostvLimit S s₀) ≤ e.2 * conf f e.1 := by
  have hlimit : 2 * log (S.length : ℝ) / s₀.tolerance ^ 2 < adaboostvLimit S s₀ + 1 := by
    unfold adaboostvLimit; rw [hq]; exact Nat.lt_floor_add_one _
  generalize adaboostvLimit S s₀ = n at *
  obtain ⟨hW, f', hf', hc⟩ := adaboostv_output S s₀ wl n qs s hpm hconf htol hn0 hr
  rw [hf, Except.ok.injEq] at hf'; subst hf'
  have hn1 : (0 : ℝ) < n := by exact_mod_cast hn0
  have hWpos : 0 < s.weights.sum := lt_of_lt_of_le (by positivity) hW
  have hv := adaboostv_vote_margin S s₀ wl n qs s hpm hconf htol.le hr e he
  obtain ⟨γ, hγ, hrho⟩ := (adaboostv_target S s₀ wl n qs s hr hn0).2.1
  have hge := hg γ hγ
  rw [hc, ← mul_div_assoc, le_div_iff₀ hWpos]
  have h1 : (g - s₀.tolerance) * s.weights.sum ≤ s.rho * s.weights.sum :=
    mul_le_mul_of_nonneg_right (by rw [hrho]; linarith) hWpos.le
  rw [div_lt_iff₀ (by positivity)] at hlimit
  have h2 : s₀.tolerance / (2 * n) * (n * s₀.tolerance) ≤ s₀.tolerance / (2 * n) * s.weights.sum :=
    mul_le_mul_of_nonneg_left hW (by positivity)
  have h3 : s₀.tolerance / (2 * n) * (n * s₀.tolerance) = s₀.tolerance ^ 2 / 2 := by
    field_simp
  nlinarith

/-- How a run ends: either with one hypothesis of margin one everywhere, or after the full number of rounds. -/
theorem adaboostv_run_cases (S : Examples X ℝ) (s₀ : AdaBoostV H) (wl : WeakLearner ℝ H)
    (hvalid : checkBinary S = .ok ()) (hpm : Spec.PmLabels S)
    (hconf : ∀ k d, ∀ e ∈ S, |conf (wl k d) e.1| ≤ 1) (g : ℝ)
    (htol : 0 < s₀.tolerance) (hg1 : -1 < g - s₀.tolerance)
    (hwl : ∀ k d, d.length = S.length → Spec.IsPosProb d → g ≤ Spec.edge S d (conf (wl k d)))
    (hlim0 : 0 < adaboostvLimit S s₀) :
    ∃ f qs, (AdaBoostV.booster S).run wl (adaboostvLimit S s₀ + 1) s₀ = some (.ok (f, qs)) ∧
      ((g ≤ 1 ∧ ∀ e ∈ S, e.2 * conf f e.1 = 1) ∨
        ∃ qs' s, (AdaBoostV.booster S).Reachable wl s₀ (adaboostvLimit S s₀) qs' s ∧
          (AdaBoostV.booster S).postprocess s = .ok f ∧ ∀ γ ∈ Spec.edges S conf qs' s.hypotheses, g ≤ γ) := by
  obtain ⟨r, hrun⟩ := (adaboostv_terminates S s₀ wl).1
  have hedges : ∀ n qs s, (AdaBoostV.booster S).Reachable wl s₀ n qs s →
      ∀ γ ∈ Spec.edges S conf qs s.hypotheses, g ≤ γ := by
    intro n qs s hr
    induction hr with
    | start hp => simp [Spec.edges]
    | @step n qs s₁ out hr hb hf ih =>
      have hi := inv_of_reachable hr
      obtain ⟨h1, h2, h2a, h2b, h3, h4⟩ := boost_cont hi.ne hi.dist hb hf
      rw [h3, h4]
      simp only [edges_append S qs s₁.hypotheses (by rw [hi.qlen, hi.hlen])]
      intro γ hγ
      rcases List.mem_append.1 hγ with h | h
      · exact ih γ h
      · simp only [List.mem_singleton] at h
        rw [h]
        apply hwl
        · rw [hi.dist]; simp [Spec.expWeights]
        · rw [hi.dist]; exact expWeights_posProb S hi.ne _
  unfold Booster.run at hrun ⊢
  have hpre : ∃ s', (AdaBoostV.booster S).preprocess s₀ wl = .ok s' := by
    simp only [AdaBoostV.booster, AdaBoostV.preprocess, hvalid]; exact ⟨_, rfl⟩
  obtain ⟨s', hs'⟩ := hpre
  -- what one call of `boost` does in a reachable state
  have hstep : ∀ n qs s, (AdaBoostV.booster S).Reachable wl s₀ n qs s → n + 1 ≤ s.maxIter →
      (1 ≤ Spec.edge S s.dist (conf (wl (n + 1) s.dist)) ∧
        (AdaBoostV.booster S).boost s wl (n + 1) = .ok
          ⟨{ s with terminated := n + 1, weights := [1], hypotheses := [wl (n + 1) s.dist] },
            .brk (n + 1), [s.dist]⟩) ∨
      ∃ out, (AdaBoostV.booster S).boost s wl (n + 1) = .ok out ∧ out.flow = .cont := by
    intro n qs s hr hle
    have hi := inv_of_reachable hr
    have hge := hwl (n + 1) s.dist (by rw [hi.dist]; simp [Spec.expWeights])
      (by rw [hi.dist]; exact expWeights_posProb S hi.ne _)
    set γ := Spec.edge S s.dist (conf (X := X) (wl (n + 1) s.dist)) with hγ
    have hgm1 : -1 < γ := by linarith
    have hgamma : g ≤ s.gamma ∨ n = 0 := by
      rcases Nat.eq_zero_or_pos n with h | h
      · exact .inr h
      · left
        obtain ⟨γ', hγ', hrho⟩ := (adaboostv_target S s₀ wl n qs s hr h).2.1
        have := hedges _ _ _ hr γ' hγ'
        rcases hi.rho with ⟨h0, _⟩ | ⟨_, h1, _⟩
        · omega
        · rw [hi.tol] at h1; linarith
    by_cases h1 : 1 ≤ γ
    · left
      refine ⟨h1, ?_⟩
      simp only [AdaBoostV.booster, AdaBoostV.boost, margins_def, innerProduct_eq_zip]
      rw [if_neg (by omega), if_pos (h1.trans (le_abs_self _)), AdaBoost.signum, if_pos (by
        rw [← hγ]; linarith)]
    · right
      have hlt : |γ| < 1 := abs_lt.2 ⟨hgm1, not_le.1 h1⟩
      simp only [AdaBoostV.booster, AdaBoostV.boost, updateParams, margins_def, innerProduct_eq_zip]
      rw [if_neg (by omega), if_neg (not_le.2 hlt)]
      have hmin : g ≤ min γ s.gamma ∧ min γ s.gamma < 1 := by
        refine ⟨le_min hge ?_, (min_le_left _ _).trans_lt (not_le.1 h1)⟩
        rcases hgamma with h | h
        · exact h
        · subst h
          have hq0 : qs = [] := List.length_eq_zero_iff.1 hi.qlen
          have : s.gamma = 1 := by rw [hi.gamma, hq0]; simp [Spec.edges]
          rw [this]; linarith
      rw [if_pos ⟨by rw [hi.tol]; linarith [hmin.1], by rw [hi.tol]; linarith [hmin.2]⟩]
      have hrw := reweight_expWeights S hi.ne (weightedConf s.weights s.hypotheses)
        (conf (wl (n + 1) s.dist)) (AdaBoost.hypWeight γ -
          AdaBoost.hypWeight (min γ s.gamma - s.tolerance))
      rw [← hi.dist] at hrw
      unfold AdaBoost.hypWeight at hrw
      rw [hrw]
      exact ⟨_, rfl, rfl⟩
  simp only [hs'] at hrun ⊢
  cases hl : (AdaBoostV.booster S).loop wl (adaboostvLimit S s₀ + 1) s' 1 with
  | none => simp [hl] at hrun
  | some r' =>
    rcases Booster.loop_spec _ wl s₀ (Booster.Reachable.start hs') hl with
      ⟨n', qs', s'', h1, h2, e, h3, h4⟩ | ⟨n', qs', s'', out, k, h1, h2, h3, h4, qs, h5, h6⟩
    · exfalso
      by_cases hlt : s''.maxIter < n' + 1
      · simp only [AdaBoostV.booster, AdaBoostV.boost, if_pos hlt] at h3
        simp at h3
      · rcases hstep n' qs' s'' h1 (by omega) with ⟨_, h⟩ | ⟨_, h, _⟩ <;> rw [h] at h3 <;> simp at h3
    · subst h6
      simp only []
      have hi := inv_of_reachable h1
      have hmax : s''.maxIter = adaboostvLimit S s₀ := hi.max
      by_cases hlt : s''.maxIter < n' + 1
      · have hn : n' = adaboostvLimit S s₀ := by have := hi.le; omega
        have hout : out.state = s'' := by
          simp only [AdaBoostV.booster, AdaBoostV.boost, if_pos hlt, Except.ok.injEq] at h3
          rw [← h3]
        obtain ⟨f, hf, _⟩ := (adaboostv_output S s₀ wl n' qs' s'' hpm hconf htol (by omega) h1).2
        rw [hout, hf]
        exact ⟨f, qs, rfl, .inr ⟨qs', s'', hn ▸ h1, hf, hedges _ _ _ h1⟩⟩
      · rcases hstep n' qs' s'' h1 (by omega) with ⟨hge, h⟩ | ⟨out', h, hc⟩
        · rw [h, Except.ok.injEq] at h3
          subst h3
          have hpost : (AdaBoostV.booster S).postprocess
              { s'' with terminated := n' + 1, weights := [1], hypotheses := [wl (n' + 1) s''.dist] } =
              .ok ⟨[1], [wl (n' + 1) s''.dist]⟩ := by
            simp only [AdaBoostV.booster, AdaBoostV.postprocess, WeightedMajority.fromSlices, normalize]
            simp
          rw [hpost]
          have hdist := hi.dist
          set F : X → ℝ := weightedConf (X := X) s''.weights s''.hypotheses with hF
          have hp := expLoss_pos S hi.ne F
          rw [expWeights_eq] at hdist
          have hle : ∀ e ∈ S, e.2 * conf (wl (n' + 1) s''.dist) e.1 ≤ 1 := by
            intro e he
            have h1 := abs_le.1 (hconf (n' + 1) s''.dist e he)
            rcases hpm e he with h | h <;> rw [h] <;> linarith
          have hge' : 1 ≤ Spec.edge S (S.map fun e => exp (-(e.2 * F e.1)) / expLoss S F)
              (conf (wl (n' + 1) s''.dist)) := by
            rw [← hdist]; exact hge
          have hall := all_margins_one S _ (fun e _ => div_pos (exp_pos _) hp)
            (by rw [sum_map_div]; exact div_self hp.ne') _ hle hge'
          have hcc : ∀ e : X × ℝ, conf (⟨[1], [wl (n' + 1) s''.dist]⟩ : WeightedMajority ℝ H) e.1 =
              conf (wl (n' + 1) s''.dist) e.1 := by
            intro e; rw [conf_weightedMajority]; simp [Spec.vote]
          -- `g ≤ 1` because an edge is at most one
          have hprob := expWeights_posProb S hi.ne F
          have hlen : (Spec.expWeights S F).length = S.length := by simp [Spec.expWeights]
          have := hwl (n' + 1) s''.dist (by rw [hi.dist]; exact hlen) (by rw [hi.dist]; exact hprob)
          have hle1 : Spec.edge S s''.dist (conf (wl (n' + 1) s''.dist)) ≤ 1 := by
            have hs1 : (S.map fun e => exp (-(e.2 * F e.1)) / expLoss S F).sum = 1 := by
              rw [sum_map_div]; exact div_self hp.ne'
            have : Spec.edge S (S.map fun e => exp (-(e.2 * F e.1)) / expLoss S F)
              (conf (wl (n' + 1) s''.dist)) ≤ 1 := by
              rw [specEdge_map, ← hs1]
              apply sum_map_le
              intro e he
              have h0 := div_pos (exp_pos (-(e.2 * F e.1))) hp
              nlinarith [hle e he]
            rw [hdist] at this ⊢; exact this
          exact ⟨_, qs, rfl, .inl ⟨by linarith, fun e he => by rw [hcc, hall e he]⟩⟩
        · rw [h, Except.ok.injEq] at h3
          subst h3
          rw [hc] at h4; simp at h4

/-- C61/C62 for AdaBoostV, end to end: on a valid `±1` sample, with a weak learner that always returns a
hypothesis with confidences in `[-1,1]` and edge at least `g`, where `0 < ν` and `-1 < g - ν`, and an
iteration limit `≥ 2 ln(m)/ν²`, `run` terminates without panic and every training example ends with margin
at least `g - ν`. -/
theorem adaboostv_run_margin (S : Examples X ℝ) (s₀ : AdaBoostV H) (wl : WeakLearner ℝ H)
    (hvalid : checkBinary S = .ok ()) (hpm : Spec.PmLabels S)
    (hconf : ∀ k d, ∀ e ∈ S, |conf (wl k d) e.1| ≤ 1) (g : ℝ)
    (htol : 0 < s₀.tolerance) (hg1 : -1 < g - s₀.tolerance)
    (hwl : ∀ k d, d.length = S.length → Spec.IsPosProb d → g ≤ Spec.edge S d (conf (wl k d)))
    (hlim0 : 0 < adaboostvLimit S s₀)
    (hlim : 2 * log S.length ≤ s₀.tolerance ^ 2 * adaboostvLimit S s₀) :
    ∃ f qs, (AdaBoostV.booster S).run wl (adaboostvLimit S s₀ + 1) s₀ = some (.ok (f, qs)) ∧
      ∀ e ∈ S, g - s₀.tolerance ≤ e.2 * conf f e.1 := by
  obtain ⟨f, qs, hrun, h⟩ := adaboostv_run_cases S s₀ wl hvalid hpm hconf g htol hg1 hwl hlim0
  refine ⟨f, qs, hrun, fun e he => ?_⟩
  rcases h with ⟨h1, h2⟩ | ⟨qs', s, h1, h2, h3⟩
  · rw [h2 e he]; linarith
  · exact adaboostv_margin S s₀ wl _ qs' s hpm hconf htol hlim0 h1 g h3 hlim f h2 e he

/-- C61/C62 for AdaBoostV with the iteration limit `⌊2 ln(m)/ν²⌋` the code computes itself: every training example ends with
margin at least `g - ν - ν/(2⌊2 ln(m)/ν²⌋)`. -/
theorem adaboostv_run_margin_at_limit (S : Examples X ℝ) (s₀ : AdaBoostV H) (wl : WeakLearner ℝ H)
    (hvalid : checkBinary S = .ok ()) (hpm : Spec.PmLabels S)
    (hconf : ∀ k d, ∀ e ∈ S, |conf (wl k d) e.1| ≤ 1) (g : ℝ)
    (htol : 0 < s₀.tolerance) (hg1 : -1 < g - s₀.tolerance)
    (hwl : ∀ k d, d.length = S.length → Spec.IsPosProb d → g ≤ Spec.edge S d (conf (wl k d)))
    (hq : s₀.forceQuitAt = none) (hlim0 : 0 < adaboostvLimit S s₀) :
    ∃ f qs, (AdaBoostV.booster S).run wl (adaboostvLimit S s₀ + 1) s₀ = some (.ok (f, qs)) ∧
      ∀ e ∈ S, g - s₀.tolerance - s₀.tolerance / (2 * adaboostvLimit S s₀) ≤ e.2 * conf f e.1 := by
  obtain ⟨f, qs, hrun, h⟩ := adaboostv_run_cases S s₀ wl hvalid hpm hconf g htol hg1 hwl hlim0
  refine ⟨f, qs, hrun, fun e he => ?_⟩
  rcases h with ⟨h1, h2⟩ | ⟨qs', s, h1, h2, h3⟩
  · rw [h2 e he]
    have : 0 ≤ s₀.tolerance / (2 * adaboostvLimit S s₀) := by positivity
    linarith
  · exact adaboostv_margin_at_limit S s₀ wl qs' s hpm hconf htol hq hlim0 h1 g h3 f h2 e he

/-- C61 for AdaBoostV, the missing case: when the smallest edge seen minus the tolerance leaves `(-1, 1)` the
code takes the logarithm of a non-positive number (the model reports `nonFinite`).  Concretely this happens
in the first round for every hypothesis of edge `γ` with `-1 < γ ≤ ν - 1`. -/
theorem adaboostv_bad_target_not_finite (S : Examples X ℝ) (s₀ : AdaBoostV H)
    (wl : WeakLearner ℝ H) (qs : List (List ℝ)) (s : AdaBoostV H)
    (hr : (AdaBoostV.booster S).Reachable wl s₀ 0 qs s) (hlim : 1 ≤ adaboostvLimit S s₀)
    (h1 : -1 < Spec.edge S s.dist (conf (wl 1 s.dist)))
    (h2 : Spec.edge S s.dist (conf (wl 1 s.dist)) ≤ s₀.tolerance - 1)
    (h3 : Spec.edge S s.dist (conf (wl 1 s.dist)) < 1) :
    (AdaBoostV.booster S).boost s wl 1 = .error .nonFinite := by
  have hi := inv_of_reachable hr
  have hmax : s.maxIter = adaboostvLimit S s₀ := hi.max
  simp only [AdaBoostV.booster, AdaBoostV.boost, updateParams, margins_def, innerProduct_eq_zip]
  rw [if_neg (by omega), if_neg (not_le.2 (abs_lt.2 ⟨h1, h3⟩)), if_neg]
  rintro ⟨h, _⟩
  have := min_le_left (Spec.edge S s.dist (conf (wl 1 s.dist))) s.gamma
  rw [hi.tol] at h
  linarith

/-- C52 for AdaBoostV: whatever state earlier runs left behind, the result of `run` depends only on the
sample, the weak learner, the tolerance and `force_quit_at`. -/
theorem adaboostv_run_history_independent (S : Examples X ℝ) (s t : AdaBoostV H)
    (htol : s.tolerance = t.tolerance) (hq : s.forceQuitAt = t.forceQuitAt)
    (wl : WeakLearner ℝ H) (fuel : Nat) :
    (AdaBoostV.booster S).run wl fuel s = (AdaBoostV.booster S).run wl fuel t := by
  apply Booster.run_congr (AdaBoostV.booster S) wl
    (fun a b => a.dist = b.dist ∧ a.weights = b.weights ∧ a.hypotheses = b.hypotheses ∧
      a.maxIter = b.maxIter ∧ a.gamma = b.gamma ∧ a.tolerance = b.tolerance)
  · rintro a b it ⟨h1, h2, h3, h4, h5, h6⟩
    simp only [AdaBoostV.booster, AdaBoostV.boost, updateParams, h1, h2, h3, h4, h5, h6]
    split
    · exact .inr ⟨_, _, rfl, rfl, rfl, rfl, h1, h2, h3, h4, h5, h6⟩
    · split
      · exact .inr ⟨_, _, rfl, rfl, rfl, rfl, rfl, rfl, rfl, rfl, rfl, rfl⟩
      · by_cases hc : -1 < min (innerProduct (margins S (wl it b.dist)) b.dist) b.gamma - b.tolerance ∧
            min (innerProduct (margins S (wl it b.dist)) b.dist) b.gamma - b.tolerance < 1
        · simp only [if_pos hc]
          generalize reweight b.dist (margins S (wl it b.dist)) _ = w
          cases w with
          | error e => exact .inl ⟨e, rfl, rfl⟩
          | ok p => exact .inr ⟨_, _, rfl, rfl, rfl, rfl, rfl, rfl, rfl, rfl, rfl, rfl⟩
        · simp only [if_neg hc]
          exact .inl ⟨_, rfl, rfl⟩
  · rintro a b ⟨h1, h2, h3, _⟩
    simp only [AdaBoostV.booster, AdaBoostV.postprocess, h2, h3]
  · simp only [AdaBoostV.booster, AdaBoostV.preprocess]
    cases checkBinary S with
    | error e => exact .inl ⟨e, rfl, rfl⟩
    | ok u =>
      refine .inr ⟨_, _, rfl, rfl, rfl, rfl, rfl, ?_, rfl, htol⟩
      simp only [AdaBoostV.maxLoop, htol, hq]

section nonvacuity

/-- AdaBoostV with tolerance `1/2` limited to six rounds. -/
noncomputable def exBoosterV : AdaBoostV (Fn Nat ℝ) :=
  ((AdaBoostV.init exSample).setTolerance (1 / 2)).setForceQuitAt 6

/-- The hypotheses of the end-to-end margin theorem are met by a run that does not use the shortcut. -/
example : ∃ f qs, (AdaBoostV.booster exSample).run exLearner (6 + 1) exBoosterV = some (.ok (f, qs)) ∧
    ∀ e ∈ exSample, 1 / 2 - 1 / 2 ≤ e.2 * conf f e.1 := by
  refine adaboostv_run_margin exSample exBoosterV exLearner exSample_valid ?_ ?_ (1 / 2)
    (by norm_num [exBoosterV, setTolerance, setForceQuitAt])
    (by norm_num [exBoosterV, setTolerance, setForceQuitAt]) ?_ ?_ ?_
  · intro e he; simp [exSample] at he; rcases he with rfl | rfl <;> simp
  · intro k d e he
    simp [exSample] at he
    rcases he with rfl | rfl
    · simp only [exLearner, conf, if_true]; rw [abs_of_pos] <;> norm_num
    · simp only [exLearner, conf]; norm_num [abs_of_neg]
  · intro k d hl hd; rw [exLearner_edge k d hl hd]
  · have hlim : adaboostvLimit exSample exBoosterV = 6 := rfl
    rw [hlim]; norm_num
  · have hlim : adaboostvLimit exSample exBoosterV = 6 := rfl
    have h2 := Real.log_two_lt_d9
    rw [hlim]
    simp only [exSample, exBoosterV, setTolerance, setForceQuitAt, List.length_cons, List.length_nil]
    norm_num
    linarith

end nonvacuity

end Miniboosts.Props
