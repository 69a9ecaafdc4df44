import Verif.Props.TreePanic
import Verif.Props.MadaBoost
import Verif.Props.AdaBoostV
import Verif.Props.SmoothBoost
import Verif.Props.GraphSepBoost
import Verif.Props.GBMBoost

/-! # C61: when `run` returns, and when it panics -/

set_option linter.unusedSectionVars false

namespace Miniboosts.Props

open Miniboosts Spec Real

section general

variable {σ K H O : Type*}

/-- The state of a run after fewer rounds is reachable too, and its call of `boost` said `Continue`. -/
theorem reachable_earlier {B : Booster σ K H O} {wl : WeakLearner K H} {s₀ : σ} {n : Nat} {qs : List (List K)} {s : σ}
    (h : B.Reachable wl s₀ n qs s) : ∀ m < n, ∃ qs' s' out, B.Reachable wl s₀ m qs' s' ∧
      B.boost s' wl (m + 1) = .ok out ∧ out.flow = .cont := by
  induction h with
  | start h => intro m hm; omega
  | @step n qs s₁ out hr hb hf ih =>
    intro m hm
    by_cases hmn : m < n
    · exact ih m hmn
    · have : m = n := by omega
      subst this
      exact ⟨qs, s₁, out, hr, hb, hf⟩

/-- A run that ends within `fuel` calls of `boost` returns if and only if it reaches a state in which `boost` stops the loop and
the final construction succeeds. -/
theorem run_returns_iff (B : Booster σ K H O) (wl : WeakLearner K H) (s₀ : σ) (fuel : Nat)
    (hend : ∃ r, B.run wl fuel s₀ = some r) :
    (∃ f qs, B.run wl fuel s₀ = some (.ok (f, qs))) ↔
      ∃ n qs s out k f, B.Reachable wl s₀ n qs s ∧ B.boost s wl (n + 1) = .ok out ∧ out.flow = .brk k ∧
        B.postprocess out.state = .ok f := by
  constructor
  · rintro ⟨f, qs, h⟩
    obtain ⟨n, qs', s, out, k, hr, -, hb, hf, -, hp⟩ := Booster.run_spec _ _ _ h
    exact ⟨n, qs', s, out, k, f, hr, hb, hf, hp⟩
  · rintro ⟨n, qs, s, out, k, f, hr, hb, hf, hp⟩
    have hpre : ∃ s', B.preprocess s₀ wl = .ok s' := by
      clear hb
      induction hr with
      | start h => exact ⟨_, h⟩
      | step _ _ _ ih => exact ih
    obtain ⟨s', hs'⟩ := hpre
    obtain ⟨r, hrun⟩ := hend
    unfold Booster.run at hrun ⊢
    simp only [hs'] at hrun ⊢
    cases hl : B.loop wl fuel s' 1 with
    | none => simp [hl] at hrun
    | some r' =>
      rcases Booster.loop_spec _ wl s₀ (Booster.Reachable.start hs') hl with
        ⟨n', qs', s'', h1, h2, e, h3, h4⟩ | ⟨n', qs', s'', out', k', h1, h2, h3, h4, qs'', h5, h6⟩
      · exfalso
        rcases Nat.lt_trichotomy n n' with hlt | heq | hlt
        · obtain ⟨q, t, o, a, b, c⟩ := reachable_earlier h1 n hlt
          obtain ⟨-, rfl⟩ := reachable_unique hr a
          rw [hb, Except.ok.injEq] at b
          subst b; rw [hf] at c; cases c
        · subst heq
          obtain ⟨-, rfl⟩ := reachable_unique hr h1
          rw [hb] at h3; cases h3
        · obtain ⟨q, t, o, a, b, c⟩ := reachable_earlier hr n' hlt
          obtain ⟨-, rfl⟩ := reachable_unique h1 a
          rw [h3] at b; cases b
      · have hnn : n = n' := by
          rcases Nat.lt_trichotomy n n' with hlt | heq | hlt
          · obtain ⟨q, t, o, a, b, c⟩ := reachable_earlier h1 n hlt
            obtain ⟨-, rfl⟩ := reachable_unique hr a
            rw [hb, Except.ok.injEq] at b
            subst b; rw [hf] at c; cases c
          · exact heq
          · obtain ⟨q, t, o, a, b, c⟩ := reachable_earlier hr n' hlt
            obtain ⟨-, rfl⟩ := reachable_unique h1 a
            rw [h3, Except.ok.injEq] at b
            subst b; rw [h4] at c; cases c
        subst hnn
        obtain ⟨-, rfl⟩ := reachable_unique hr h1
        rw [hb, Except.ok.injEq] at h3
        subst h3 h6
        simp only [hp]
        exact ⟨f, qs'', rfl⟩

end general

section classifiers

variable {H X : Type*} [Classifier H X ℝ]

theorem signum_vote_ok (γ : ℝ) (h : H) :
    (∃ f, WeightedMajority.fromSlices [AdaBoost.signum γ] [h] = .ok f) ↔ 0 ≤ γ := by
  rw [fromSlices_ok_iff]
  unfold AdaBoost.signum
  by_cases h0 : 0 ≤ γ
  · simp [h0]
  · simp only [if_neg h0, h0, iff_false]
    rintro ⟨p, hp, hpos⟩
    simp only [List.zip_cons_cons, List.zip_nil_right, List.mem_singleton] at hp
    subst hp
    norm_num at hpos

/-- C61 for AdaBoost, exactly and for every weak learner: a run on a valid sample returns if and only if it is stopped by an answer
of edge at least one, or makes all its rounds and one of the answers had a positive edge.  In every other case it panics. -/
theorem adaboost_returns_iff_general (S : Examples X ℝ) (s₀ : AdaBoost H) (wl : WeakLearner ℝ H) :
    (∃ f qs, (AdaBoost.booster S).run wl (adaboostLimit S s₀ + 1) s₀ = some (.ok (f, qs))) ↔
      ∃ n qs s, (AdaBoost.booster S).Reachable wl s₀ n qs s ∧
        ((n < adaboostLimit S s₀ ∧ 1 ≤ Spec.edge S s.dist (conf (wl (n + 1) s.dist))) ∨
          (n = adaboostLimit S s₀ ∧ ∃ γ ∈ Spec.edges S conf qs s.hypotheses, 0 < γ)) := by
  rw [run_returns_iff _ _ _ _ (adaboost_terminates S s₀ wl).1]
  constructor
  · rintro ⟨n, qs, s, out, k, f, hr, hb, hf, hp⟩
    refine ⟨n, qs, s, hr, ?_⟩
    have hi := AdaBoost.inv_of_reachable hr
    have hmax : s.maxIter = adaboostLimit S s₀ := hi.max
    have hle := hi.le
    by_cases hlt : s.maxIter < n + 1
    · right
      refine ⟨by omega, ?_⟩
      simp only [AdaBoost.booster, AdaBoost.boost, if_pos hlt, Except.ok.injEq] at hb
      subst hb
      exact (adaboost_postprocess_ok_iff S s₀ wl n qs s hr).1 ⟨f, hp⟩
    · left
      refine ⟨by omega, ?_⟩
      simp only [AdaBoost.booster, AdaBoost.boost, margins_def, innerProduct_eq_zip, if_neg hlt] at hb
      by_cases h1 : 1 ≤ |Spec.edge S s.dist (conf (wl (n + 1) s.dist))|
      · rw [if_pos h1, Except.ok.injEq] at hb
        subst hb
        have h0 := (signum_vote_ok _ _).1 ⟨f, hp⟩
        rwa [abs_of_nonneg h0] at h1
      · exfalso
        rw [if_neg h1] at hb
        cases hu : AdaBoost.updateParams s.dist (S.map fun e => e.2 * conf (wl (n + 1) s.dist) e.1)
            (Spec.edge S s.dist (conf (wl (n + 1) s.dist))) with
        | error e => simp only [hu] at hb; cases hb
        | ok p => simp only [hu, Except.ok.injEq] at hb; subst hb; cases hf
  · rintro ⟨n, qs, s, hr, ⟨hn, hedge⟩ | ⟨hn, hpos⟩⟩
    · have hi := AdaBoost.inv_of_reachable hr
      have hmax : s.maxIter = adaboostLimit S s₀ := hi.max
      obtain ⟨out, h1, h2, h3⟩ := adaboost_perfect_hypothesis S s₀ wl n qs s hr (by omega) hedge
      exact ⟨n, qs, s, out, _, _, hr, h1, h2, h3⟩
    · have hi := AdaBoost.inv_of_reachable hr
      have hmax : s.maxIter = adaboostLimit S s₀ := hi.max
      obtain ⟨f, hf⟩ := (adaboost_postprocess_ok_iff S s₀ wl n qs s hr).2 hpos
      refine ⟨n, qs, s, ⟨s, .brk s.maxIter, []⟩, _, f, hr, ?_, rfl, hf⟩
      simp only [AdaBoost.booster, AdaBoost.boost]
      rw [if_pos (by omega)]

/-- C61 for MadaBoost, exactly and for every weak learner: a run returns if and only if it is stopped by an answer of edge at least
one to a weight vector it hands out, or makes all its rounds and one of the answers had a positive edge. -/
theorem madaboost_returns_iff (S : Examples X ℝ) (s₀ : MadaBoost H) (wl : WeakLearner ℝ H) :
    (∃ f qs, (MadaBoost.booster S).run wl (madaLimit S s₀ + 1) s₀ = some (.ok (f, qs))) ↔
      ∃ n qs s, (MadaBoost.booster S).Reachable wl s₀ n qs s ∧
        ((n < madaLimit S s₀ ∧ ∃ out d, (MadaBoost.booster S).boost s wl (n + 1) = .ok out ∧ out.queries = [d] ∧
            1 ≤ Spec.edge S d (conf (wl (n + 1) d))) ∨
          (n = madaLimit S s₀ ∧ ∃ γ ∈ Spec.edges S conf qs s.hypotheses, 0 < γ)) := by
  rw [run_returns_iff _ _ _ _ (madaboost_terminates S s₀ wl).1]
  constructor
  · rintro ⟨n, qs, s, out, k, f, hr, hb, hf, hp⟩
    refine ⟨n, qs, s, hr, ?_⟩
    have hi := MadaBoost.inv_of_reachable hr
    have hmax : s.maxIter = madaLimit S s₀ := hi.max
    have hle := hi.le
    have hbc := MadaBoost.boost_cases (wl := wl) (it := n + 1) hi.ne hi.betas
    simp only [] at hbc
    have hb' := hb
    rw [show (MadaBoost.booster S).boost s wl (n + 1) = MadaBoost.boost S s wl (n + 1) from rfl, hbc] at hb'
    split at hb'
    · right
      refine ⟨by omega, ?_⟩
      rw [Except.ok.injEq] at hb'
      subst hb'
      exact (madaboost_vote_weights S s₀ wl n qs s hr).2.1 ⟨f, hp⟩
    · left
      refine ⟨by omega, out, ?_⟩
      split at hb'
      · rename_i h1
        rw [Except.ok.injEq] at hb'
        have hq : out.queries = [MadaBoost.clip S (weightedConf (X := X)
          ((Spec.edges S conf qs s.hypotheses).map MadaBoost.betaOf) s.hypotheses)] := by rw [← hb']
        refine ⟨_, hb, hq, ?_⟩
        have h0 := (signum_vote_ok (Spec.edge S (MadaBoost.clip S (weightedConf (X := X)
          ((Spec.edges S conf qs s.hypotheses).map MadaBoost.betaOf) s.hypotheses)) (conf (wl (n + 1) (MadaBoost.clip S (weightedConf (X := X)
          ((Spec.edges S conf qs s.hypotheses).map MadaBoost.betaOf) s.hypotheses)))))
          (wl (n + 1) (MadaBoost.clip S (weightedConf (X := X)
          ((Spec.edges S conf qs s.hypotheses).map MadaBoost.betaOf) s.hypotheses)))).1 ⟨f, by rw [← hb'] at hp; exact hp⟩
        rwa [abs_of_nonneg h0] at h1
      · rw [Except.ok.injEq] at hb'; subst hb'; cases hf
  · rintro ⟨n, qs, s, hr, ⟨hn, out, d, hb, hq, hedge⟩ | ⟨hn, hpos⟩⟩
    · have hi := MadaBoost.inv_of_reachable hr
      have hmax : s.maxIter = madaLimit S s₀ := hi.max
      have hbc := MadaBoost.boost_cases (wl := wl) (it := n + 1) hi.ne hi.betas
      simp only [] at hbc
      have hb' := hb
      rw [show (MadaBoost.booster S).boost s wl (n + 1) = MadaBoost.boost S s wl (n + 1) from rfl, hbc, if_neg (by omega)] at hb'
      have hd : d = MadaBoost.clip S (weightedConf (X := X)
          ((Spec.edges S conf qs s.hypotheses).map MadaBoost.betaOf) s.hypotheses) := by
        split at hb' <;> (rw [Except.ok.injEq] at hb'; rw [← hb'] at hq; simpa using hq.symm)
      rw [← hd, if_pos (hedge.trans (le_abs_self _)), Except.ok.injEq] at hb'
      obtain ⟨f, hf⟩ := (signum_vote_ok (Spec.edge S d (conf (wl (n + 1) d))) (wl (n + 1) d)).2 (by linarith)
      refine ⟨n, qs, s, out, n + 1, f, hr, hb, by rw [← hb'], ?_⟩
      rw [← hb']; exact hf
    · have hi := MadaBoost.inv_of_reachable hr
      have hmax : s.maxIter = madaLimit S s₀ := hi.max
      obtain ⟨f, hf⟩ := (madaboost_vote_weights S s₀ wl n qs s hr).2.2 hpos
      refine ⟨n, qs, s, ⟨s, .brk s.maxIter, []⟩, _, f, hr, ?_, rfl, hf⟩
      simp only [MadaBoost.booster, MadaBoost.boost]
      rw [if_pos (by omega)]

/-- C61 for AdaBoostV, exactly and for every weak learner: with a positive tolerance `ν` and at least one round, a run on a valid
sample returns if and only if every answer the run gets has an edge above `ν - 1` (or at least one). -/
theorem adaboostv_returns_iff (S : Examples X ℝ) (s₀ : AdaBoostV H) (wl : WeakLearner ℝ H) (hvalid : checkBinary S = .ok ())
    (htol : 0 < s₀.tolerance) (hlim : 0 < adaboostvLimit S s₀) :
    (∃ f qs, (AdaBoostV.booster S).run wl (adaboostvLimit S s₀ + 1) s₀ = some (.ok (f, qs))) ↔
      ∀ n qs s, (AdaBoostV.booster S).Reachable wl s₀ n qs s → n < adaboostvLimit S s₀ →
        s₀.tolerance - 1 < Spec.edge S s.dist (conf (wl (n + 1) s.dist)) ∨ 1 ≤ Spec.edge S s.dist (conf (wl (n + 1) s.dist)) := by
  -- what one call of `boost` does
  have hstep : ∀ n qs s, (AdaBoostV.booster S).Reachable wl s₀ n qs s → n < adaboostvLimit S s₀ →
      s₀.tolerance - 1 < Spec.edge S s.dist (conf (wl (n + 1) s.dist)) → Spec.edge S s.dist (conf (wl (n + 1) s.dist)) < 1 →
      ∃ out, (AdaBoostV.booster S).boost s wl (n + 1) = .ok out ∧ out.flow = .cont := by
    intro n qs s hr hn h1 h2
    have hi := AdaBoostV.inv_of_reachable hr
    have hmax : s.maxIter = adaboostvLimit S s₀ := hi.max
    set γ := Spec.edge S s.dist (conf (X := X) (wl (n + 1) s.dist)) with hγ
    simp only [AdaBoostV.booster, AdaBoostV.boost, AdaBoostV.updateParams, margins_def, innerProduct_eq_zip]
    rw [if_neg (by omega), if_neg (not_le.2 (abs_lt.2 ⟨by linarith, h2⟩))]
    have hg : s₀.tolerance - 1 < s.gamma ∨ γ < s.gamma := by
      rcases hi.rho with ⟨h0, _⟩ | ⟨_, h1, h2, h3⟩
      · subst h0
        have hq0 : qs = [] := List.length_eq_zero_iff.1 hi.qlen
        have : s.gamma = 1 := by rw [hi.gamma, hq0]; simp [Spec.edges]
        rw [this]; exact .inr h2
      · left; rw [hi.tol] at h1; linarith
    have hmin : s₀.tolerance - 1 < min γ s.gamma := by
      rcases hg with h | h
      · exact lt_min h1 h
      · rw [min_eq_left h.le]; exact h1
    have hmin' := min_le_left γ s.gamma
    rw [if_pos ⟨by rw [hi.tol]; linarith, by rw [hi.tol]; linarith⟩]
    have hrw := reweight_expWeights S hi.ne (weightedConf s.weights s.hypotheses)
      (conf (wl (n + 1) s.dist)) (AdaBoost.hypWeight γ -
        AdaBoost.hypWeight (min γ s.gamma - s.tolerance))
    rw [← hi.dist] at hrw
    unfold AdaBoost.hypWeight at hrw
    rw [hrw]
    exact ⟨_, rfl, rfl⟩
  rw [run_returns_iff _ _ _ _ (adaboostv_terminates S s₀ wl).1]
  constructor
  · rintro ⟨n, qs, s, out, k, f, hr, hb, hf, hp⟩ m qs' s' hr' hm
    have hi := AdaBoostV.inv_of_reachable hr
    have hmax : s.maxIter = adaboostvLimit S s₀ := hi.max
    have hle := hi.le
    have hcont : ∀ o, (AdaBoostV.booster S).boost s' wl (m + 1) = .ok o → o.flow = .cont →
        s₀.tolerance - 1 < Spec.edge S s'.dist (conf (wl (m + 1) s'.dist)) := by
      intro o hb ho
      have hi' := AdaBoostV.inv_of_reachable hr'
      obtain ⟨h1, h2, h2a, h2b, h3, h4⟩ := AdaBoostV.boost_cont hi'.ne hi'.dist hb ho
      have := min_le_left (Spec.edge S s'.dist (conf (wl (m + 1) s'.dist))) s'.gamma
      rw [hi'.tol] at h2a
      linarith
    rcases Nat.lt_trichotomy m n with hlt | heq | hlt
    · obtain ⟨q, t, o, a, b, c⟩ := reachable_earlier hr m hlt
      obtain ⟨-, rfl⟩ := reachable_unique hr' a
      exact .inl (hcont o b c)
    · subst heq
      obtain ⟨-, rfl⟩ := reachable_unique hr hr'
      right
      simp only [AdaBoostV.booster, AdaBoostV.boost, margins_def, innerProduct_eq_zip] at hb
      rw [if_neg (by omega)] at hb
      by_cases h1 : 1 ≤ |Spec.edge S s.dist (conf (wl (m + 1) s.dist))|
      · rw [if_pos h1, Except.ok.injEq] at hb
        subst hb
        have h0 := (signum_vote_ok _ _).1 ⟨f, hp⟩
        rwa [abs_of_nonneg h0] at h1
      · exfalso
        rw [if_neg h1] at hb
        cases hu : AdaBoostV.updateParams s (S.map fun e => e.2 * conf (wl (m + 1) s.dist) e.1)
            (Spec.edge S s.dist (conf (wl (m + 1) s.dist))) with
        | error e => simp only [hu] at hb; cases hb
        | ok p => simp only [hu, Except.ok.injEq] at hb; subst hb; cases hf
    · obtain ⟨q, t, o, a, b, c⟩ := reachable_earlier hr' n hlt
      obtain ⟨-, rfl⟩ := reachable_unique hr a
      rw [hb, Except.ok.injEq] at b
      subst b; rw [hf] at c; cases c
  · intro hall
    -- walk along the run
    have hwalk : ∀ j, j ≤ adaboostvLimit S s₀ →
        (∃ n qs s out k f, (AdaBoostV.booster S).Reachable wl s₀ n qs s ∧ (AdaBoostV.booster S).boost s wl (n + 1) = .ok out ∧
          out.flow = .brk k ∧ (AdaBoostV.booster S).postprocess out.state = .ok f) ∨
        ∃ qs s, (AdaBoostV.booster S).Reachable wl s₀ j qs s := by
      intro j
      induction j with
      | zero =>
        intro _
        right
        have hpre : ∃ s', (AdaBoostV.booster S).preprocess s₀ wl = .ok s' := by
          simp only [AdaBoostV.booster, AdaBoostV.preprocess, hvalid]; exact ⟨_, rfl⟩
        obtain ⟨s', hs'⟩ := hpre
        exact ⟨[], s', .start hs'⟩
      | succ j ih =>
        intro hj
        rcases ih (by omega) with h | ⟨qs, s, hr⟩
        · exact .inl h
        · have hi := AdaBoostV.inv_of_reachable hr
          have hmax : s.maxIter = adaboostvLimit S s₀ := hi.max
          by_cases h1 : 1 ≤ Spec.edge S s.dist (conf (wl (j + 1) s.dist))
          · left
            obtain ⟨f, hf⟩ := (signum_vote_ok (Spec.edge S s.dist (conf (wl (j + 1) s.dist))) (wl (j + 1) s.dist)).2 (by linarith)
            refine ⟨j, qs, s, ⟨{ s with terminated := j + 1, weights := [AdaBoost.signum (Spec.edge S s.dist (conf (wl (j + 1) s.dist)))], hypotheses := [wl (j + 1) s.dist] }, .brk (j + 1), [s.dist]⟩, _, f, hr, ?_, rfl, hf⟩
            simp only [AdaBoostV.booster, AdaBoostV.boost, margins_def, innerProduct_eq_zip]
            rw [if_neg (by omega), if_pos (h1.trans (le_abs_self _))]
          · right
            obtain ⟨out, h2, h3⟩ := hstep j qs s hr (by omega) ((hall j qs s hr (by omega)).resolve_right h1) (not_le.1 h1)
            exact ⟨_, _, .step hr h2 h3⟩
    rcases hwalk _ le_rfl with h | ⟨qs, s, hr⟩
    · exact h
    · have hi := AdaBoostV.inv_of_reachable hr
      have hmax : s.maxIter = adaboostvLimit S s₀ := hi.max
      -- every vote weight is positive
      have hpos : ∀ n qs s, (AdaBoostV.booster S).Reachable wl s₀ n qs s → ∀ w ∈ s.weights, 0 < w := by
        intro n qs s hr
        induction hr with
        | start hp =>
          simp only [AdaBoostV.booster, AdaBoostV.preprocess, hvalid, Except.ok.injEq] at hp
          subst hp; simp
        | @step n qs s₁ out hr hb hf ih =>
          have hi := AdaBoostV.inv_of_reachable hr
          obtain ⟨h1, h2, h2a, h2b, h3, h4⟩ := AdaBoostV.boost_cont hi.ne hi.dist hb hf
          rw [h4]
          intro w hw
          rcases List.mem_append.1 hw with h | h
          · exact ih w h
          · simp only [List.mem_singleton] at h
            rw [h]
            have hm := min_le_left (Spec.edge S s₁.dist (conf (wl (n + 1) s₁.dist))) s₁.gamma
            have htol' : 0 < s₁.tolerance := by rw [hi.tol]; exact htol
            have hge := hypWeight_sub_ge h2a (by linarith) (abs_lt.1 h2).2
            have : min (Spec.edge S s₁.dist (conf (wl (n + 1) s₁.dist))) s₁.gamma - s₁.tolerance <
                Spec.edge S s₁.dist (conf (wl (n + 1) s₁.dist)) := by linarith
            linarith
      have hw0 : ∃ w, w ∈ s.weights := List.length_pos_iff_exists_mem.1 (by rw [hi.wlen]; exact hlim)
      have hp : ∃ f, (AdaBoostV.booster S).postprocess s = .ok f := by
        rw [show (AdaBoostV.booster S).postprocess s = WeightedMajority.fromSlices s.weights s.hypotheses from rfl, fromSlices_ok_iff]
        obtain ⟨w, hw⟩ := hw0
        obtain ⟨i, hi', hget⟩ := List.getElem_of_mem hw
        have hl : i < s.hypotheses.length := by rw [hi.hlen, ← hi.wlen]; exact hi'
        refine ⟨(s.weights[i], s.hypotheses[i]), ?_, ?_⟩
        · rw [List.mem_iff_getElem]
          exact ⟨i, by simp [hi', hl], by simp⟩
        · exact hpos _ _ _ hr _ (List.getElem_mem hi')
      obtain ⟨f, hf⟩ := hp
      refine ⟨_, qs, s, ⟨s, .brk s.maxIter, []⟩, _, f, hr, ?_, rfl, hf⟩
      simp only [AdaBoostV.booster, AdaBoostV.boost]
      rw [if_pos (by omega)]

/-- C61 for SmoothBoost: with `γ ≥ 0` (all the setter accepts) a run returns -- for every weak learner -- if and only if the sample is
valid, `0 < κ < 1` and `γ < 1/2`. -/
theorem smoothboost_returns_iff (S : Examples X ℝ) (s₀ : SmoothBoost H) (hg0 : 0 ≤ s₀.gamma) (wl : WeakLearner ℝ H) :
    (∃ f qs, (SmoothBoost.booster S).run wl (smoothLimit s₀ + 1) s₀ = some (.ok (f, qs))) ↔
      checkBinary S = .ok () ∧ (0 < s₀.kappa ∧ s₀.kappa < 1) ∧ s₀.gamma < 1 / 2 := by
  rw [run_returns_iff _ _ _ _ (smoothboost_terminates S s₀ wl).1]
  constructor
  · rintro ⟨n, qs, s, out, k, f, hr, hb, hf, hp⟩
    have hpre : ∃ s', (SmoothBoost.booster S).preprocess s₀ wl = .ok s' := by
      clear hb
      induction hr with
      | start h => exact ⟨_, h⟩
      | step _ _ _ ih => exact ih
    have hv : checkBinary S = .ok () := by
      obtain ⟨s', hs'⟩ := hpre
      simp only [SmoothBoost.booster, SmoothBoost.preprocess] at hs'
      cases hc : checkBinary S with
      | ok u => rfl
      | error e => rw [hc] at hs'; cases hs'
    exact ⟨hv, (smoothboost_preprocess_ok_iff S s₀ hg0 wl hv).1 hpre⟩
  · rintro ⟨hv, hk, hg⟩
    obtain ⟨s', hs'⟩ := (smoothboost_preprocess_ok_iff S s₀ hg0 wl hv).2 ⟨hk, hg⟩
    have hlim : 0 < smoothLimit s₀ := by
      unfold smoothLimit
      split
      · norm_num [AdaBoost.usizeMax]
      · rename_i hne
        apply Nat.ceil_pos.2
        have h1 : 0 ≤ s₀.kappa * s₀.gamma ^ 2 * √(1 - s₀.gamma) := by
          have := hk.1
          positivity
        have : 0 < s₀.kappa * s₀.gamma ^ 2 * √(1 - s₀.gamma) := lt_of_le_of_ne h1 (Ne.symm hne)
        positivity
    obtain ⟨r, hrun⟩ := (smoothboost_terminates S s₀ wl).1
    unfold Booster.run at hrun
    simp only [hs'] at hrun
    cases hl : (SmoothBoost.booster S).loop wl (smoothLimit s₀ + 1) s' 1 with
    | none => simp [hl] at hrun
    | some r' =>
      rcases Booster.loop_spec _ wl s₀ (Booster.Reachable.start hs') hl with
        ⟨n', qs', s'', h1, h2, e, h3, h4⟩ | ⟨n', qs', s'', out', k', h1, h2, h3, h4, qs'', h5, h6⟩
      · obtain ⟨o, ho, -⟩ := (smoothboost_terminates S s₀ wl).2 _ _ _ h1
        rw [h3] at ho; cases ho
      · obtain ⟨-, -, hp⟩ := smoothboost_output S s₀ wl hlim n' qs' s'' h1 out' k' h3 h4
        exact ⟨n', qs', s'', out', k', _, h1, h3, h4, hp⟩

end classifiers

section graph

variable {K : Type*} [Field K] [LinearOrder K] [IsStrictOrderedRing K] [FloorRing K] {H X : Type*} [Classifier H X K]

/-- C61 for GraphSepBoost: a run returns -- for every weak learner -- if and only if the sample is valid. -/
theorem graphsep_returns_iff (S : Examples X K) (s₀ : GraphSepBoost H) (wl : WeakLearner K H) :
    (∃ f qs, (GraphSepBoost.booster S).run wl (Spec.openPairs (predict (K := K)) S ([] : List H) + 1) s₀ = some (.ok (f, qs))) ↔
      checkBinary S = .ok () := by
  rw [run_returns_iff _ _ _ _ (graphsep_terminates S s₀ wl).1]
  constructor
  · rintro ⟨n, qs, s, out, k, f, hr, hb, hf, hp⟩
    have hpre : ∃ s', (GraphSepBoost.booster S).preprocess s₀ wl = .ok s' := by
      clear hb
      induction hr with
      | start h => exact ⟨_, h⟩
      | step _ _ _ ih => exact ih
    obtain ⟨s', hs'⟩ := hpre
    simp only [GraphSepBoost.booster, GraphSepBoost.preprocess] at hs'
    cases hc : checkBinary S with
    | ok u => rfl
    | error e => rw [hc] at hs'; cases hs'
  · intro hv
    have hpre : ∃ s', (GraphSepBoost.booster S).preprocess s₀ wl = .ok s' := by
      simp only [GraphSepBoost.booster, GraphSepBoost.preprocess, hv]; exact ⟨_, rfl⟩
    obtain ⟨s', hs'⟩ := hpre
    obtain ⟨r, hrun⟩ := (graphsep_terminates S s₀ wl).1
    unfold Booster.run at hrun
    simp only [hs'] at hrun
    cases hl : (GraphSepBoost.booster S).loop wl (Spec.openPairs (predict (K := K)) S ([] : List H) + 1) s' 1 with
    | none => simp [hl] at hrun
    | some r' =>
      rcases Booster.loop_spec _ wl s₀ (Booster.Reachable.start hs') hl with
        ⟨n', qs', s'', h1, h2, e, h3, h4⟩ | ⟨n', qs', s'', out', k', h1, h2, h3, h4, qs'', h5, h6⟩
      · rcases graphsep_step S s₀ wl _ _ _ h1 with ⟨_, h⟩ | ⟨_, _, _, h, _⟩ <;> rw [h] at h3 <;> cases h3
      · exact ⟨n', qs', s'', out', k', _, h1, h3, h4, rfl⟩

end graph

section gbm

variable {K : Type*} [Field K] [LinearOrder K] [IsStrictOrderedRing K] {H X : Type*} [Regressor H X K]

/-- A fitted history within the limit is the history of a reachable state. -/
theorem gbm_reachable_of_fitted (best : List K → List K → Except Panic K) (S : Examples X K) (s₀ : GBM K H) (wl : WeakLearner K H)
    (wh : List (K × H)) (hfit : Fitted best S wl wh) (hlen : wh.length ≤ s₀.maxIter) :
    ∃ qs s, (GBM.booster best S).Reachable wl s₀ wh.length qs s ∧ s.weights = wh.map Prod.fst ∧ s.hypotheses = wh.map Prod.snd := by
  induction wh using List.reverseRecOn with
  | nil => exact ⟨[], _, .start rfl, rfl, rfl⟩
  | append_singleton wh p ih =>
    simp only [List.length_append, List.length_singleton] at hlen
    have hpre : Fitted best S wl wh := by
      intro i w g hi
      have hil : i < wh.length := by
        by_contra hc
        rw [List.getElem?_eq_none (by omega)] at hi; cases hi
      have := hfit i w g (by rw [List.getElem?_append_left hil]; exact hi)
      rwa [List.take_append_of_le_length hil.le] at this
    obtain ⟨qs, s, hr, h1, h2⟩ := ih hpre (by omega)
    have hi := gbm_inv hr
    have hzip : List.zip s.weights s.hypotheses = wh := by
      rw [h1, h2, ← List.unzip_fst, ← List.unzip_snd, List.zip_unzip]
    obtain ⟨w, g⟩ := p
    obtain ⟨ha, hb, h0⟩ := hfit wh.length w g (by rw [List.getElem?_append_right le_rfl]; simp)
    rw [List.take_append_of_le_length le_rfl, List.take_of_length_le le_rfl] at ha
    have hpred := hi.pred
    rw [hzip] at hpred
    have hg : wl (wh.length + 1) s.predictions = g := by rw [hpred, ha]
    have hreg : GBM.regressAll g (S.map Prod.fst) = S.map fun e => Regressor.pred g e.1 := by
      unfold GBM.regressAll; rw [List.map_map]; rfl
    have hstep : (GBM.booster best S).boost s wl (wh.length + 1) = .ok ⟨{ s with weights := s.weights ++ [w], hypotheses := s.hypotheses ++ [g], predictions := updateZip (fun p q => p + w * q) s.predictions (S.map fun e => Regressor.pred g e.1) }, .cont, [s.predictions]⟩ := by
      have hmax := hi.max
      simp only [GBM.booster, GBM.boost, hg, hreg]
      rw [if_neg (by omega), hb]
      simp only [if_neg h0]
    rw [List.length_append, List.length_singleton]
    exact ⟨_, _, .step hr hstep rfl, by simp [h1], by simp [h2]⟩

/-- C61 for GBM, exactly and for every weak learner and line search: a run returns if and only if the fitted pairs -- up to the
iteration limit, or up to a predictor whose line search answers zero -- include one with a positive coefficient.  A line search that
panics in between makes the run panic. -/
theorem gbm_returns_iff (best : List K → List K → Except Panic K) (S : Examples X K) (s₀ : GBM K H) (wl : WeakLearner K H) :
    (∃ f qs, (GBM.booster best S).run wl (s₀.maxIter + 1) s₀ = some (.ok (f, qs))) ↔
      ∃ wh : List (K × H), Fitted best S wl wh ∧ (∃ p ∈ wh, 0 < p.1) ∧
        (wh.length = s₀.maxIter ∨ (wh.length < s₀.maxIter ∧
          best (S.map Prod.snd) (S.map fun e => Regressor.pred
            (wl (wh.length + 1) (S.map fun e => Spec.vote Regressor.pred wh e.1)) e.1) = .ok 0)) := by
  rw [run_returns_iff _ _ _ _ (gbm_terminates best S s₀ wl).1]
  have hreg : ∀ g : H, (GBM.regressAll g (S.map Prod.fst) : List K) = S.map fun e => Regressor.pred g e.1 := by
    intro g; unfold GBM.regressAll; rw [List.map_map]; rfl
  constructor
  · rintro ⟨n, qs, s, out, k, f, hr, hb, hf, hp⟩
    have hi := gbm_inv hr
    have hzl : (List.zip s.weights s.hypotheses).length = n := by rw [List.length_zip, hi.wlen, hi.hlen, min_self]
    have hmax := hi.max
    have hle := hi.le
    refine ⟨List.zip s.weights s.hypotheses, hi.fit, ?_⟩
    rw [hzl, ← hi.pred]
    simp only [GBM.booster, GBM.boost, hreg] at hb
    by_cases h1 : s.maxIter < n + 1
    · rw [if_pos h1, Except.ok.injEq] at hb
      subst hb
      exact ⟨(fromSlices_ok_iff _ _).1 ⟨f, hp⟩, .inl (by omega)⟩
    rw [if_neg h1] at hb
    cases hc : best (S.map Prod.snd) (S.map fun e => Regressor.pred (wl (n + 1) s.predictions) e.1) with
    | error e => simp only [hc] at hb; cases hb
    | ok coef =>
      simp only [hc] at hb
      by_cases h0 : coef = 0
      · rw [if_pos h0, Except.ok.injEq] at hb
        subst hb
        exact ⟨(fromSlices_ok_iff _ _).1 ⟨f, hp⟩, .inr ⟨by omega, by rw [h0]⟩⟩
      · rw [if_neg h0, Except.ok.injEq] at hb; subst hb; cases hf
  · rintro ⟨wh, hfit, hpos, hend⟩
    obtain ⟨qs, s, hr, h1, h2⟩ := gbm_reachable_of_fitted best S s₀ wl wh hfit (by omega)
    have hi := gbm_inv hr
    have hmax := hi.max
    have hzip : List.zip s.weights s.hypotheses = wh := by
      rw [h1, h2, ← List.unzip_fst, ← List.unzip_snd, List.zip_unzip]
    have hpost : ∃ f, WeightedMajority.fromSlices s.weights s.hypotheses = .ok f := by
      rw [fromSlices_ok_iff, hzip]; exact hpos
    obtain ⟨f, hf⟩ := hpost
    rcases hend with h | ⟨hlt, hb⟩
    · refine ⟨_, qs, s, ⟨s, .brk s.maxIter, []⟩, _, f, hr, ?_, rfl, hf⟩
      simp only [GBM.booster, GBM.boost]
      rw [if_pos (by omega)]
    · refine ⟨_, qs, s, ⟨{ s with terminated := wh.length + 1 }, .brk (wh.length + 1), [s.predictions]⟩, _, f, hr, ?_, rfl, hf⟩
      have hpred := hi.pred
      rw [hzip] at hpred
      simp only [GBM.booster, GBM.boost, hreg]
      rw [if_neg (by omega)]
      simp only [hpred, hb, if_true]

/-- When the two line searches answer: the squared loss needs outputs that do not sum to zero, the absolute loss one output that is
not zero. -/
theorem line_search_ok_iff (targets predictions : List K) (hl : targets.length = predictions.length) :
    ((∃ c, GBMLoss.L2.bestCoefficient targets predictions = .ok c) ↔ predictions.sum ≠ 0) ∧
    ((∃ c, GBMLoss.L1.bestCoefficient targets predictions = .ok c) ↔ ∃ p ∈ predictions, p ≠ 0) := by
  constructor
  · simp only [GBMLoss.bestCoefficient]
    split
    · rename_i h; simp [h]
    · rename_i h; simp [h]
  · simp only [GBMLoss.bestCoefficient]
    set items := (List.zip targets predictions).filterMap fun rp : K × K =>
      if rp.2 = 0 then none else some (|rp.2|, rp.1 / rp.2) with hitems
    have hmem : items ≠ [] ↔ ∃ p ∈ predictions, p ≠ 0 := by
      constructor
      · intro h
        obtain ⟨a, ha⟩ := List.exists_mem_of_ne_nil _ h
        obtain ⟨⟨y, p⟩, hp, hq⟩ := List.mem_filterMap.1 ha
        refine ⟨p, (List.of_mem_zip hp).2, ?_⟩
        intro h0
        simp [h0] at hq
      · rintro ⟨p, hp, h0⟩ hnil
        obtain ⟨i, hi, hget⟩ := List.getElem_of_mem hp
        have hz : (targets[i]'(by omega), p) ∈ List.zip targets predictions := by
          rw [List.mem_iff_getElem]
          exact ⟨i, by simp [hi, hl], by simp [hget]⟩
        have : (|p|, targets[i]'(by omega) / p) ∈ items := List.mem_filterMap.2 ⟨_, hz, by simp [h0]⟩
        rw [hnil] at this; cases this
    rw [← hmem]
    constructor
    · rintro ⟨c, hc⟩ hnil
      rw [hnil] at hc; simp [weightedMedian] at hc
    · intro hne
      have hw : ∀ p ∈ items, 0 ≤ p.1 := by
        intro a ha
        obtain ⟨⟨y, p⟩, hp, hq⟩ := List.mem_filterMap.1 ha
        split at hq
        · cases hq
        · simp only [Option.some.injEq] at hq; subst hq; exact abs_nonneg _
      obtain ⟨c, hc, -⟩ := weightedMedian_optimal items hw hne
      exact ⟨c, hc⟩

/-- The condition is met, and `run` returns: one round with the squared loss. -/
example : ∃ wh : List (ℚ × RFn Nat ℚ), Fitted (H := RFn Nat ℚ) (X := Nat) GBMLoss.L2.bestCoefficient [(0, (2 : ℚ)), (1, 6)] (fun _ _ => ⟨fun x => if x = 0 then 1 else 3⟩) wh ∧
    (∃ p ∈ wh, 0 < p.1) ∧ wh.length = 1 := by
  refine ⟨[(2, ⟨fun x => if x = 0 then 1 else 3⟩)], ?_, ⟨_, List.mem_singleton.2 rfl, by norm_num⟩, rfl⟩
  intro i w g hi
  match i with
  | 0 =>
    simp only [List.getElem?_cons_zero, Option.some.injEq, Prod.mk.injEq] at hi
    obtain ⟨rfl, rfl⟩ := hi
    exact ⟨rfl, by decide +kernel, by norm_num⟩
  | i + 1 => simp at hi

end gbm

/-- A learner that is always wrong. -/
noncomputable def wrongLearner : WeakLearner ℝ (Fn Nat ℝ) := fun _ _ => ⟨fun x => if x = 0 then -1 else 1⟩

/-- Both sides of the conditions occur: AdaBoostV returns with the half-confident learner and panics with the one that is always
wrong. -/
example : (∃ f qs, (AdaBoostV.booster exSample).run exLearner (adaboostvLimit exSample exBoosterV + 1) exBoosterV = some (.ok (f, qs))) ∧
    ¬ ∃ f qs, (AdaBoostV.booster exSample).run wrongLearner (adaboostvLimit exSample exBoosterV + 1) exBoosterV = some (.ok (f, qs)) := by
  have hlim : adaboostvLimit exSample exBoosterV = 6 := by
    simp [adaboostvLimit, exBoosterV, AdaBoostV.setTolerance, AdaBoostV.setForceQuitAt]
  have htol : exBoosterV.tolerance = 1 / 2 := by norm_num [exBoosterV, AdaBoostV.setTolerance, AdaBoostV.setForceQuitAt]
  constructor
  · rw [adaboostv_returns_iff exSample exBoosterV exLearner exSample_valid (by rw [htol]; norm_num) (by rw [hlim]; norm_num)]
    intro n qs s hr _
    have hi := AdaBoostV.inv_of_reachable hr
    left
    have hd := (expWeights_posProb exSample hi.ne (weightedConf s.weights s.hypotheses))
    rw [hi.dist, exLearner_edge _ _ (by simp [expWeights]) hd, htol]
    norm_num
  · rw [adaboostv_returns_iff exSample exBoosterV wrongLearner exSample_valid (by rw [htol]; norm_num) (by rw [hlim]; norm_num)]
    intro h
    have hpre : ∃ s', (AdaBoostV.booster exSample).preprocess exBoosterV wrongLearner = .ok s' := by
      simp only [AdaBoostV.booster, AdaBoostV.preprocess, exSample_valid]; exact ⟨_, rfl⟩
    obtain ⟨s, hs⟩ := hpre
    have hr : (AdaBoostV.booster exSample).Reachable wrongLearner exBoosterV 0 [] s := .start hs
    have hi := AdaBoostV.inv_of_reachable hr
    have hd := (expWeights_posProb exSample hi.ne (weightedConf s.weights s.hypotheses))
    rw [← hi.dist] at hd
    have he : Spec.edge exSample s.dist (conf (wrongLearner 1 s.dist)) = -1 := by
      obtain ⟨hpos, hsum⟩ := hd
      have hl : s.dist.length = exSample.length := by rw [hi.dist]; simp [expWeights]
      generalize s.dist = d at hl hsum
      match d, hl with
      | [a, b], _ =>
        simp only [List.sum_cons, List.sum_nil, add_zero] at hsum
        simp [Spec.edge, exSample, wrongLearner, conf]
        linarith
    rcases h 0 [] s hr (by rw [hlim]; norm_num) with h | h
    · rw [htol, he] at h; norm_num at h
    · rw [he] at h; norm_num at h

end Miniboosts.Props
