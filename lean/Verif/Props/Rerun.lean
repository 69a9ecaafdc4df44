import Verif.Spec.Rerun
import Verif.Props.AdaBoost
import Verif.Props.AdaBoostV
import Verif.Props.MadaBoost
import Verif.Props.SmoothBoost
import Verif.Props.GraphSepBoost
import Verif.Props.GBMBoost
import Verif.Props.CERLPBoost
import Verif.Props.LPBoost
import Verif.Props.ERLPBoost
import Verif.Props.SoftBoost
import Verif.Props.MLPBoost

/-! # C52: a booster object can be run again -/

set_option linter.unusedSectionVars false

namespace Miniboosts.Props

open Miniboosts Spec Real

section general

variable {σ K H O C : Type*}

/-- A setting that neither `preprocess` nor `boost` changes is not changed by any number of runs. -/
theorem used_setting (B : Booster σ K H O) (c : σ → C) (hpre : ∀ s wl s', B.preprocess s wl = .ok s' → c s' = c s)
    (hboost : ∀ s wl n out, B.boost s wl n = .ok out → c out.state = c s) {s s' : σ} (h : Used B s s') : c s' = c s := by
  have hreach : ∀ {wl n qs s s'}, B.Reachable wl s n qs s' → c s' = c s := by
    intro wl n qs s s' hr
    induction hr with
    | start h => exact hpre _ _ _ h
    | step hr hb hf ih => rw [hboost _ _ _ _ hb, ih]
  induction h with
  | fresh => rfl
  | again hu hl ih =>
    rw [← ih]
    cases hl with
    | interrupted wl n qs h => exact hreach h
    | finished wl n qs s₁ out k h hb hf he => rw [he, hboost _ _ _ _ hb]; exact hreach h

end general

section classifiers

variable {H X : Type*} [Classifier H X ℝ]

/-- C52 for AdaBoost. -/
theorem adaboost_rerun (S : Examples X ℝ) (s s' : AdaBoost H) (h : Used (AdaBoost.booster S) s s') (wl : WeakLearner ℝ H) (fuel : Nat) :
    (AdaBoost.booster S).run wl fuel s' = (AdaBoost.booster S).run wl fuel s := by
  have hc := used_setting (AdaBoost.booster S) (fun s => (s.tolerance, s.forceQuitAt)) (by
    intro s wl s' h
    simp only [AdaBoost.booster, AdaBoost.preprocess] at h
    split at h
    · cases h
    · cases h; rfl) (by
    intro s wl n out h
    simp only [AdaBoost.booster, AdaBoost.boost] at h
    repeat' split at h
    all_goals first | (cases h; rfl) | cases h) h
  simp only [Prod.mk.injEq] at hc
  exact adaboost_run_history_independent S s' s hc.1 hc.2 wl fuel

/-- C52 for AdaBoostV. -/
theorem adaboostv_rerun (S : Examples X ℝ) (s s' : AdaBoostV H) (h : Used (AdaBoostV.booster S) s s') (wl : WeakLearner ℝ H) (fuel : Nat) :
    (AdaBoostV.booster S).run wl fuel s' = (AdaBoostV.booster S).run wl fuel s := by
  have hc := used_setting (AdaBoostV.booster S) (fun s => (s.tolerance, s.forceQuitAt)) (by
    intro s wl s' h
    simp only [AdaBoostV.booster, AdaBoostV.preprocess] at h
    split at h
    · cases h
    · cases h; rfl) (by
    intro s wl n out h
    simp only [AdaBoostV.booster, AdaBoostV.boost, AdaBoostV.updateParams] at h
    split at h
    · cases h; rfl
    · split at h
      · cases h; rfl
      · split at h
        · cases h
        · rename_i heq
          split at heq
          · split at heq
            · cases heq
            · cases heq; cases h; rfl
          · cases heq) h
  simp only [Prod.mk.injEq] at hc
  exact adaboostv_run_history_independent S s' s hc.1 hc.2 wl fuel

/-- C52 for MadaBoost. -/
theorem madaboost_rerun (S : Examples X ℝ) (s s' : MadaBoost H) (h : Used (MadaBoost.booster S) s s') (wl : WeakLearner ℝ H) (fuel : Nat) :
    (MadaBoost.booster S).run wl fuel s' = (MadaBoost.booster S).run wl fuel s := by
  have hc := used_setting (MadaBoost.booster S) (fun s => (s.tolerance, s.forceQuitAt)) (by
    intro s wl s' h
    simp only [MadaBoost.booster, MadaBoost.preprocess] at h
    split at h
    · cases h
    · cases h; rfl) (by
    intro s wl n out h
    simp only [MadaBoost.booster, MadaBoost.boost] at h
    repeat' split at h
    all_goals first | (cases h; rfl) | cases h) h
  simp only [Prod.mk.injEq] at hc
  exact madaboost_run_history_independent S s' s hc.1 hc.2 wl fuel

/-- C52 for SmoothBoost. -/
theorem smoothboost_rerun (S : Examples X ℝ) (s s' : SmoothBoost H) (h : Used (SmoothBoost.booster S) s s') (wl : WeakLearner ℝ H)
    (fuel : Nat) : (SmoothBoost.booster S).run wl fuel s' = (SmoothBoost.booster S).run wl fuel s := by
  have hc := used_setting (SmoothBoost.booster S) (fun s => (s.kappa, s.gamma)) (by
    intro s wl s' h
    simp only [SmoothBoost.booster, SmoothBoost.preprocess] at h
    repeat' split at h
    all_goals first | (cases h; rfl) | cases h) (by
    intro s wl n out h
    simp only [SmoothBoost.booster, SmoothBoost.boost] at h
    repeat' split at h
    all_goals first | (cases h; rfl) | cases h) h
  simp only [Prod.mk.injEq] at hc
  exact smoothboost_run_history_independent S s' s hc.1 hc.2 wl fuel

/-- C52 for CERLPBoost. -/
theorem cerlp_rerun [BEq H] (S : Examples X ℝ) (s s' : CERLPBoost H) (h : Used (CERLPBoost.booster S) s s') (wl : WeakLearner ℝ H)
    (fuel : Nat) : (CERLPBoost.booster S).run wl fuel s' = (CERLPBoost.booster S).run wl fuel s := by
  have hc := used_setting (CERLPBoost.booster S) (fun s => (s.nu, s.halfTolerance, s.frankWolfe.nu, s.frankWolfe.fwType)) (by
    intro s wl s' h
    simp only [CERLPBoost.booster, CERLPBoost.preprocess, CERLPBoost.regularizationParam] at h
    split at h
    · cases h
    · cases h; rfl) (by
    intro s wl n out h
    simp only [CERLPBoost.booster, CERLPBoost.boost] at h
    repeat' split at h
    all_goals first | (cases h; rfl) | cases h) h
  simp only [Prod.mk.injEq] at hc
  exact cerlp_history_independent S s' s wl hc.1 hc.2.1 hc.2.2.1 hc.2.2.2 fuel

/-- C52 for LPBoost (`init` stores the number of examples). -/
theorem lpboost_rerun (S : Examples X ℝ) (solver : Solver ℝ) (s s' : LPBoost ℝ H) (hn : s.nSample = S.length)
    (h : Used (LPBoost.booster solver S) s s') (wl : WeakLearner ℝ H) (fuel : Nat) :
    (LPBoost.booster solver S).run wl fuel s' = (LPBoost.booster solver S).run wl fuel s := by
  have hc := used_setting (LPBoost.booster solver S) (fun s => (s.nu, s.tolerance)) (by
    intro s wl s' h
    simp only [LPBoost.booster, LPBoost.preprocess, LPBoost.initSolver] at h
    split at h
    · cases h
    · split at h
      · cases h
      · rename_i heq
        split at heq
        · simp only [Except.ok.injEq] at heq h
          subst heq h
          rfl
        · cases heq) (by
    intro s wl n out h
    simp only [LPBoost.booster, LPBoost.boost] at h
    repeat' split at h
    all_goals first | (cases h; rfl) | cases h) h
  have hns : s'.nSample = S.length := by
    have hreach : ∀ {wl n qs s s'}, (LPBoost.booster solver S).Reachable (H := H) wl s n qs s' → s'.nSample = S.length := by
      intro wl n qs s s' hr
      induction hr with
      | start h =>
        simp only [LPBoost.booster, LPBoost.preprocess] at h
        repeat' split at h
        all_goals first | (cases h; rfl) | cases h
      | step hr hb hf ih =>
        rw [← ih]
        simp only [LPBoost.booster, LPBoost.boost] at hb
        repeat' split at hb
        all_goals first | (cases hb; rfl) | cases hb
    cases h with
    | fresh => exact hn
    | again hu hl =>
      cases hl with
      | interrupted wl n qs h => exact hreach h
      | finished wl n qs s₁ out k h hb hf he =>
        rw [he, ← hreach h]
        simp only [LPBoost.booster, LPBoost.boost] at hb
        repeat' split at hb
        all_goals first | (cases hb; rfl) | cases hb
  simp only [Prod.mk.injEq] at hc
  exact lpboost_history_independent S s' s solver wl fuel hc.1 hc.2 (by rw [hns, hn])

/-- C52 for ERLPBoost. -/
theorem erlp_rerun (S : Examples X ℝ) (solver : Solver ℝ) (m : Nat) (s s' : ERLPBoost H)
    (h : Used (ERLPBoost.booster solver m S) s s') (wl : WeakLearner ℝ H) (fuel : Nat) :
    (ERLPBoost.booster solver m S).run wl fuel s' = (ERLPBoost.booster solver m S).run wl fuel s := by
  have hc := used_setting (ERLPBoost.booster solver m S) (fun s => (s.nu, s.halfTolerance, s.nSample)) (by
    intro s wl s' h
    simp only [ERLPBoost.booster, ERLPBoost.preprocess, ERLPBoost.initSolver, ERLPBoost.regularizationParam] at h
    repeat' split at h
    all_goals first | (cases h; rfl) | cases h) (by
    intro s wl n out h
    simp only [ERLPBoost.booster, ERLPBoost.boost] at h
    repeat' split at h
    all_goals first | (cases h; rfl) | cases h) h
  simp only [Prod.mk.injEq] at hc
  exact erlp_history_independent S s' s solver m wl fuel hc.1 hc.2.1 hc.2.2

/-- C52 for SoftBoost. -/
theorem softboost_rerun (S : Examples X ℝ) (solver : Solver ℝ) (m : Nat) (s s' : SoftBoost H)
    (h : Used (SoftBoost.booster solver m S) s s') (wl : WeakLearner ℝ H) (fuel : Nat) :
    (SoftBoost.booster solver m S).run wl fuel s' = (SoftBoost.booster solver m S).run wl fuel s := by
  have hc := used_setting (SoftBoost.booster solver m S) (fun s => (s.nu, s.tolerance)) (by
    intro s wl s' h
    simp only [SoftBoost.booster, SoftBoost.preprocess, SoftBoost.initSolver] at h
    repeat' split at h
    all_goals first | (cases h; rfl) | cases h) (by
    intro s wl n out h
    simp only [SoftBoost.booster, SoftBoost.boost] at h
    repeat' split at h
    all_goals first | (cases h; rfl) | cases h) h
  simp only [Prod.mk.injEq] at hc
  exact softboost_history_independent S s' s solver m wl fuel hc.1 hc.2

/-- C52 for TotalBoost. -/
theorem totalboost_rerun (S : Examples X ℝ) (solver : Solver ℝ) (m : Nat) (s s' : TotalBoost H)
    (h : Used (TotalBoost.booster solver m S) s s') (wl : WeakLearner ℝ H) (fuel : Nat) :
    (TotalBoost.booster solver m S).run wl fuel s' = (TotalBoost.booster solver m S).run wl fuel s := by
  have hc := used_setting (TotalBoost.booster solver m S) (fun s => (s.softboost.nu, s.softboost.tolerance)) (by
    intro s wl s' h
    simp only [TotalBoost.booster, SoftBoost.booster, SoftBoost.preprocess, SoftBoost.initSolver] at h
    repeat' split at h
    all_goals first | (cases h; rfl) | cases h) (by
    intro s wl n out h
    simp only [TotalBoost.booster, SoftBoost.booster, SoftBoost.boost] at h
    repeat' split at h
    all_goals first | (cases h; rfl) | cases h) h
  simp only [Prod.mk.injEq] at hc
  rw [(totalboost_is_softboost S solver m wl).2.2.2, (totalboost_is_softboost S solver m wl).2.2.2]
  exact softboost_history_independent S s'.softboost s.softboost solver m wl fuel hc.1 hc.2

/-- C52 for MLPBoost (with the perturbation of the linear program given). -/
theorem mlp_rerun [BEq H] (S : Examples X ℝ) (solver : Solver ℝ) (noise : Nat → Nat → ℝ) (s s' : MLPBoost H)
    (h : Used (MLPBoost.booster solver noise S) s s') (wl : WeakLearner ℝ H) (fuel : Nat) :
    (MLPBoost.booster solver noise S).run wl fuel s' = (MLPBoost.booster solver noise S).run wl fuel s := by
  have hc := used_setting (MLPBoost.booster solver noise S) (fun s => (s.nu, s.halfTolerance, s.primary.nu, s.primary.fwType)) (by
    intro s wl s' h
    simp only [MLPBoost.booster, MLPBoost.preprocess, MLPBoost.initParams] at h
    repeat' split at h
    all_goals first | (cases h; rfl) | cases h) (by
    intro s wl n out h
    simp only [MLPBoost.booster, MLPBoost.boost] at h
    repeat' split at h
    all_goals first | (cases h; rfl) | cases h) h
  simp only [Prod.mk.injEq] at hc
  exact mlp_history_independent S s' s solver noise wl hc.1 hc.2.1 hc.2.2.1 hc.2.2.2 fuel

end classifiers

section field

variable {K : Type*} [Field K] [LinearOrder K] [IsStrictOrderedRing K] [FloorRing K] {H X : Type*}

/-- C52 for GraphSepBoost. -/
theorem graphsep_rerun [Classifier H X K] (S : Examples X K) (s s' : GraphSepBoost H) (_h : Used (GraphSepBoost.booster S) s s')
    (wl : WeakLearner K H) (fuel : Nat) :
    (GraphSepBoost.booster S).run wl fuel s' = (GraphSepBoost.booster S).run wl fuel s :=
  graphsep_run_history_independent S s' s wl fuel

/-- C52 for GBM. -/
theorem gbm_rerun [Regressor H X K] (best : List K → List K → Except Panic K) (S : Examples X K) (s s' : GBM K H)
    (h : Used (GBM.booster best S) s s') (wl : WeakLearner K H) (fuel : Nat) :
    (GBM.booster best S).run wl fuel s' = (GBM.booster best S).run wl fuel s := by
  have hc := used_setting (GBM.booster best S) (fun s => s.maxIter) (by
    intro s wl s' h
    cases h; rfl) (by
    intro s wl n out h
    simp only [GBM.booster, GBM.boost] at h
    repeat' split at h
    all_goals first | (cases h; rfl) | cases h) h
  exact gbm_run_history_independent best S s' s hc wl fuel

end field

/-- Non-vacuity: a state left behind by a MadaBoost run interrupted after five rounds. -/
example : ∃ s', Used (MadaBoost.booster exSample) ((MadaBoost.init exSample).setForceQuitAt 6 : MadaBoost (Fn Nat ℝ)) s' ∧
    s'.hypotheses.length = 5 := by
  obtain ⟨qs, s, hr⟩ := madaboost_reachable exSample ((MadaBoost.init exSample).setForceQuitAt 6) exLearner exSample_valid
    (fun k d hl hd => by rw [exLearner_edge k d hl hd, abs_of_pos] <;> norm_num) 5 (by simp [madaLimit, MadaBoost.setForceQuitAt])
  exact ⟨s, .again .fresh (.interrupted _ _ _ hr), (MadaBoost.inv_of_reachable hr).hlen⟩

end Miniboosts.Props
