import Verif.Props.Returns
import Verif.Props.SoftBoost
import Verif.Props.MLPBoost
import Verif.Props.CERLPBoost
import Verif.Props.LPBoostBound
import Verif.Props.ERLPBoost

/-! # C61: when `run` of the solver-based boosters returns -/

set_option linter.unusedSectionVars false

namespace Miniboosts.Props

open Miniboosts Spec Real

/-- A run that returns got through the preprocessing. -/
theorem run_ok_preprocess {σ K H O : Type*} {B : Booster σ K H O} {wl : WeakLearner K H} {fuel : Nat} {s₀ : σ} {f : O}
    {qs : List (List K)} (h : B.run wl fuel s₀ = some (.ok (f, qs))) : ∃ s, B.preprocess s₀ wl = .ok s := by
  unfold Booster.run at h
  cases hp : B.preprocess s₀ wl with
  | error e => simp [hp] at h
  | ok s => exact ⟨s, rfl⟩

variable {H X : Type*} [Classifier H X ℝ]

/-- C61 for SoftBoost: with a solver that does its job, a run returns -- for every weak learner -- if and only if the sample is valid,
the tolerance is not zero and `1 ≤ ν < n`. -/
theorem softboost_returns_iff (S : Examples X ℝ) (s₀ : SoftBoost H) (solver : Solver ℝ) (hsolver : solver.Correct)
    (hsig : solver.Signals) (fuel : Nat) (hfuel : SoftQP.enough S.length ≤ fuel) (wl : WeakLearner ℝ H) :
    (∃ f qs, (SoftBoost.booster solver fuel S).run wl (softLimit S s₀ + 1) s₀ = some (.ok (f, qs))) ↔
      checkBinary S = .ok () ∧ s₀.tolerance ≠ 0 ∧ 1 ≤ s₀.nu ∧ s₀.nu < S.length := by
  constructor
  · rintro ⟨f, qs, h⟩
    obtain ⟨h1, h2, h3, h4⟩ := (softboost_preprocess_iff S s₀).1 (run_ok_preprocess h)
    refine ⟨h1, h2, h3, lt_of_le_of_ne h4 ?_⟩
    intro h5
    obtain ⟨e, he⟩ := softboost_full_cap_panics S s₀ h1 h2 h5 solver fuel wl (softLimit S s₀)
    rw [h] at he; cases he
  · rintro ⟨h1, h2, h3, h4⟩
    exact softboost_returns S s₀ h1 h2 h3 h4 solver hsolver hsig fuel hfuel wl

/-- C61 for TotalBoost (a SoftBoost with `ν = 1`): a run returns if and only if the sample is valid, has at least two examples and the
tolerance is not zero. -/
theorem totalboost_returns_iff (S : Examples X ℝ) (t : TotalBoost H) (hnu : t.softboost.nu = 1) (solver : Solver ℝ)
    (hsolver : solver.Correct) (hsig : solver.Signals) (fuel : Nat) (hfuel : SoftQP.enough S.length ≤ fuel) (wl : WeakLearner ℝ H) :
    (∃ f qs, (TotalBoost.booster solver fuel S).run wl (softLimit S t.softboost + 1) t = some (.ok (f, qs))) ↔
      checkBinary S = .ok () ∧ t.softboost.tolerance ≠ 0 ∧ 2 ≤ S.length := by
  rw [(totalboost_is_softboost S solver fuel wl).2.2.2, softboost_returns_iff S _ solver hsolver hsig fuel hfuel wl, hnu]
  constructor
  · rintro ⟨h1, h2, -, h4⟩
    exact ⟨h1, h2, by exact_mod_cast h4⟩
  · rintro ⟨h1, h2, h3⟩
    exact ⟨h1, h2, le_rfl, by exact_mod_cast h3⟩

/-- C61 for LPBoost: with a correct solver, a positive tolerance and confidences in `[-1, 1]`, a run returns if and only if the sample
is valid and `1 ≤ ν ≤ n`. -/
theorem lpboost_returns_iff (S : Examples X ℝ) (s₀ : LPBoost ℝ H) (hn : s₀.nSample = S.length) (hS : Spec.PmLabels S)
    (htol : 0 < s₀.tolerance) (solver : Solver ℝ) (hsolver : solver.Correct) (wl : WeakLearner ℝ H)
    (hwl : ∀ k d, ∀ e ∈ S, |conf (wl k d) e.1| ≤ (1 : ℝ)) :
    (∃ f qs, (LPBoost.booster solver S).run wl ((⌊2 / s₀.tolerance⌋₊ + 1) ^ S.length + 1) s₀ = some (.ok (f, qs))) ↔
      checkBinary S = .ok () ∧ 1 ≤ s₀.nu ∧ s₀.nu ≤ S.length := by
  constructor
  · rintro ⟨f, qs, h⟩
    obtain ⟨s, hs⟩ := run_ok_preprocess h
    have hs : LPBoost.preprocess S s₀ = .ok s := hs
    unfold LPBoost.preprocess at hs
    cases hc : checkBinary S with
    | error e => rw [hc] at hs; cases hs
    | ok u =>
      refine ⟨rfl, ?_⟩
      rw [hc] at hs
      simp only [LPBoost.initSolver] at hs
      by_contra h0
      rw [if_neg h0] at hs
      cases hs
  · rintro ⟨h1, h2, h3⟩
    exact lpboost_returns_always S s₀ hn hS htol h1 h2 h3 solver hsolver wl hwl

/-- C61 for ERLPBoost: with a solver that does its job and margins in `[-1, 1]`, a run returns if and only if the sample is valid, the
parameters are in range and the weak learner's first answer -- to the uniform distribution -- has an edge above `tolerance/2 - 1`. -/
theorem erlp_returns_iff (S : Examples X ℝ) (s₀ : ERLPBoost H) (hn : s₀.nSample = S.length) (solver : Solver ℝ)
    (hsolver : solver.Correct) (hrep : solver.Reports) (fuel : Nat) (hfuel : ERLP.enough S.length ≤ fuel) (wl : WeakLearner ℝ H)
    (hb : ∀ k d, ∀ e ∈ S, |e.2 * conf (wl k d) e.1| ≤ (1 : ℝ)) :
    (∃ f qs, (ERLPBoost.booster solver fuel S).run wl (erlpLimit S s₀ + 1) s₀ = some (.ok (f, qs))) ↔
      (checkBinary S = .ok () ∧ 0 < s₀.halfTolerance ∧ s₀.halfTolerance < 1 ∧ 1 ≤ s₀.nu ∧ s₀.nu ≤ S.length) ∧
        s₀.halfTolerance - 1 < Spec.edge S (List.replicate S.length (1 / (S.length : ℝ)))
          (conf (wl 1 (List.replicate S.length (1 / (S.length : ℝ))))) := by
  constructor
  · rintro ⟨f, qs, h⟩
    have hp := run_ok_preprocess h
    refine ⟨(erlp_preprocess_iff S s₀ hn).1 hp, ?_⟩
    by_contra hlt
    obtain ⟨s, hs⟩ := hp
    obtain ⟨e, he⟩ := erlp_first_round_stop_panics S s₀ hn solver fuel wl s hs (by linarith) (erlpLimit S s₀)
    rw [h] at he; cases he
  · rintro ⟨⟨h1, h2, h3, h4, h5⟩, h6⟩
    obtain ⟨f, qs, h, -⟩ := erlp_returns_uniform S s₀ hn h1 h2 h3 h4 h5 solver hsolver hrep fuel hfuel wl hb h6
    exact ⟨f, qs, h⟩

/-- C61 for CERLPBoost: with parameters in range, a run returns if and only if the sample is valid, `ν < n` and the weak learner's
first answer -- to the uniform distribution -- has an edge above half of the tolerance. -/
theorem cerlp_returns_iff [BEq H] (S : Examples X ℝ) (s₀ : CERLPBoost H) (ok : CerlpOk S s₀) (wl : WeakLearner ℝ H) :
    (∃ f qs, (CERLPBoost.booster S).run wl (cerlpLimit S s₀ + 1) s₀ = some (.ok (f, qs))) ↔
      checkBinary S = .ok () ∧ s₀.nu < S.length ∧
        s₀.halfTolerance < Spec.edge S (List.replicate S.length (1 / (S.length : ℝ)))
          (conf (wl 1 (List.replicate S.length (1 / (S.length : ℝ))))) := by
  constructor
  · rintro ⟨f, qs, h⟩
    obtain ⟨s, hs⟩ := run_ok_preprocess h
    have hv : checkBinary S = .ok () := by
      simp only [CERLPBoost.booster, CERLPBoost.preprocess] at hs
      cases hc : checkBinary S with
      | ok u => rfl
      | error e => rw [hc] at hs; cases hs
    have hlt : s₀.nu < S.length :=
      lt_of_le_of_ne ok.nu_le fun h5 => cerlp_nu_eq_m_panics S s₀ ok h5 wl _ f qs h
    refine ⟨hv, hlt, ?_⟩
    by_contra hbad
    have hstart : (CERLPBoost.booster S).Reachable wl s₀ 0 [] s := .start hs
    obtain ⟨hi, -, -⟩ := cerlp_inv ok hstart
    have hz : ∀ x : X, weightedConf s.weights s.hypotheses x = 0 := by
      intro x; rw [hi.zero rfl]; unfold weightedConf; simp
    have hmax : s.maxIter = cerlpLimit S s₀ := hi.maxIter
    have hpos : 0 < cerlpLimit S s₀ := by
      unfold cerlpLimit
      rw [Nat.ceil_pos]
      apply div_pos _ (by have := ok.tol; positivity)
      have : 0 < log ((S.length : ℝ) / s₀.nu) := by
        apply log_pos
        rw [lt_div_iff₀ (by linarith [ok.one_le_nu]), one_mul]; exact hlt
      linarith
    rcases CERLPBoost.boost_cases hi ok.strategy ok.tol ok.one_le_nu ok.nu_le ok.beq wl with
      ⟨h8, -⟩ | ⟨d, -, hd, ⟨hg, hb⟩ | ⟨hg, s'', -, -⟩⟩
    · omega
    · unfold Booster.run at h
      rw [hs] at h
      simp only [Booster.loop] at h
      rw [show (CERLPBoost.booster S).boost s wl 1 = _ from hb] at h
      simp only [CERLPBoost.booster, CERLPBoost.postprocess, hi.zero rfl] at h
      rcases fromSlices_cases (K := ℝ) [] s.hypotheses with ⟨_, h2⟩ | ⟨h1, _⟩
      · rw [h2] at h; simp at h
      · simp at h1
    · have hzz : Spec.edge S d (weightedConf s.weights s.hypotheses) = 0 := by
        unfold Spec.edge; simp [hz]
      rw [expDist_zero hz hd] at hg hzz
      rw [hzz] at hg
      simp only [Nat.zero_add] at hg
      linarith
  · rintro ⟨h1, h2, h3⟩
    exact cerlp_returns_uniform S s₀ ok h1 h2 wl h3

/-- C61 for MLPBoost: with parameters in range and a correct solver, a run returns -- for every weak learner -- if and only if the
sample is valid and `ν < n`. -/
theorem mlp_returns_iff [BEq H] (S : Examples X ℝ) (s₀ : MLPBoost H) (ok : MlpOk S s₀) (solver : Solver ℝ)
    (hsolver : solver.Correct) (noise : Nat → Nat → ℝ) (wl : WeakLearner ℝ H) :
    (∃ f qs, (MLPBoost.booster solver noise S).run wl (mlpLimit S s₀ + 1) s₀ = some (.ok (f, qs))) ↔
      checkBinary S = .ok () ∧ s₀.nu < S.length := by
  constructor
  · rintro ⟨f, qs, h⟩
    obtain ⟨s, hs⟩ := run_ok_preprocess h
    have hv : checkBinary S = .ok () := by
      simp only [MLPBoost.booster, MLPBoost.preprocess] at hs
      cases hc : checkBinary S with
      | ok u => rfl
      | error e => rw [hc] at hs; cases hs
    exact ⟨hv, lt_of_le_of_ne ok.nu_le fun h5 => mlp_nu_eq_m_panics S s₀ solver noise h5 wl _ f qs h⟩
  · rintro ⟨h1, h2⟩
    exact mlp_returns S s₀ ok solver hsolver noise h1 h2 wl

/-- Both sides of the condition occur: CERLPBoost returns with the half-confident learner and panics with the one that is always
wrong. -/
example : (∃ f qs, (CERLPBoost.booster exSample).run exLearner (cerlpLimit exSample exCerlp + 1) exCerlp = some (.ok (f, qs))) ∧
    ¬ ∃ f qs, (CERLPBoost.booster exSample).run wrongLearner (cerlpLimit exSample exCerlp + 1) exCerlp = some (.ok (f, qs)) := by
  have htol : exCerlp.halfTolerance = 1 / 10 := by norm_num [exCerlp, CERLPBoost.setTolerance, CERLPBoost.init]
  have hnu : exCerlp.nu < (exSample.length : ℝ) := by norm_num [exCerlp, CERLPBoost.setTolerance, CERLPBoost.init, exSample]
  constructor
  · rw [cerlp_returns_iff exSample exCerlp exCerlp_ok]
    refine ⟨exSample_valid, hnu, ?_⟩
    rw [htol]
    norm_num [Spec.edge, exSample, exLearner, conf, List.replicate]
  · rw [cerlp_returns_iff exSample exCerlp exCerlp_ok]
    rintro ⟨-, -, h⟩
    rw [htol] at h
    norm_num [Spec.edge, exSample, wrongLearner, conf, List.replicate] at h

end Miniboosts.Props
