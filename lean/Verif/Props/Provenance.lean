/-
C101: the hypotheses of a returned combined hypothesis are answers of the weak learner of this very run, in the order of the calls.
-/
import Verif.Spec.Provenance
import Verif.Lemmas.Basic
import Verif.Lemmas.Hypothesis
import Verif.Model.AdaBoost
import Verif.Model.AdaBoostV
import Verif.Model.MadaBoost
import Verif.Model.SmoothBoost
import Verif.Model.GraphSepBoost
import Verif.Model.GBM
import Verif.Model.LPBoost
import Verif.Model.ERLPBoost
import Verif.Model.SoftBoost
import Verif.Model.CERLPBoost
import Verif.Model.MLPBoost

namespace Miniboosts.Props

open Miniboosts

variable {K H X σ O : Type*}

theorem answers_append (wl : WeakLearner K H) (qs : List (List K)) (d : List K) :
    answers wl (qs ++ [d]) = answers wl qs ++ [wl (qs.length + 1) d] := by
  simp [answers, List.mapIdx_append]

/-- The shape every `boost` has: it asks the weak learner once and keeps its answer or not, or it asks nothing and breaks. -/
def StepOk (hyps : σ → List H) (wl : WeakLearner K H) (it : Nat) (s : σ) (out : BoostOut σ K) : Prop :=
  (∃ d, out.queries = [d] ∧ (hyps out.state).Sublist (hyps s ++ [wl it d])) ∨
    (out.queries = [] ∧ out.flow ≠ .cont ∧ (hyps out.state).Sublist (hyps s))

theorem run_provenance (B : Booster σ K H O) (hyps : σ → List H) (get : O → List H) {wl : WeakLearner K H} {s₀ : σ} {n : Nat}
    (hpre : ∀ s s', B.preprocess s wl = .ok s' → hyps s' = [])
    (hstep : ∀ s it out, B.boost s wl it = .ok out → StepOk hyps wl it s out)
    (hpost : ∀ s f, B.postprocess s = .ok f → (get f).Sublist (hyps s))
    {f : O} {qs : List (List K)} (h : B.run wl n s₀ = some (.ok (f, qs))) : FromRun wl qs (get f) := by
  have inv : ∀ {m qs s}, B.Reachable wl s₀ m qs s → qs.length = m ∧ FromRun wl qs (hyps s) := by
    intro m qs s hr
    induction hr with
    | start hp => rw [hpre _ _ hp]; exact ⟨rfl, List.nil_sublist _⟩
    | step hr hb hc ih =>
      rcases hstep _ _ _ hb with ⟨d, hq, hs⟩ | ⟨-, hn, -⟩
      · refine ⟨by rw [hq, List.length_append, ih.1]; rfl, ?_⟩
        unfold FromRun
        rw [hq, answers_append, ih.1]
        exact hs.trans (ih.2.append_right _)
      · exact absurd hc hn
  obtain ⟨m, qs', st, out, k, hr, -, hb, hf, hqs, hp⟩ := B.run_spec wl s₀ h
  have hi := inv hr
  subst hqs
  refine (hpost _ _ hp).trans ?_
  rcases hstep _ _ _ hb with ⟨d, hq, hs⟩ | ⟨hq, -, hs⟩
  · rw [hq, answers_append, hi.1]
    exact hs.trans (hi.2.append_right _)
  · rw [hq, List.append_nil]
    exact hs.trans hi.2

theorem fromSlices_sublist [Field K] [LinearOrder K] [IsStrictOrderedRing K] {ws : List K} {hs : List H} {f : WeightedMajority K H}
    (h : WeightedMajority.fromSlices ws hs = .ok f) : f.hypotheses.Sublist hs := by
  rcases fromSlices_cases ws hs with ⟨-, e⟩ | ⟨-, e⟩
  · rw [e] at h; cases h
  · rw [e] at h
    injection h with h
    rw [← h]
    refine (List.filter_sublist.map _).trans ?_
    clear h e
    induction ws generalizing hs with
    | nil => exact List.nil_sublist _
    | cons w ws ih =>
      cases hs with
      | nil => exact List.nil_sublist _
      | cons a hs => exact (ih (hs := hs)).cons_cons a

/-- Nothing asked, nothing kept. -/
theorem stepOk_quit {hyps : σ → List H} {wl : WeakLearner K H} {it : Nat} {s : σ} {out : BoostOut σ K}
    (h1 : out.queries = []) (h2 : out.flow ≠ .cont) (h3 : hyps out.state = hyps s) : StepOk hyps wl it s out :=
  .inr ⟨h1, h2, by rw [h3]⟩

theorem stepOk_keep {hyps : σ → List H} {wl : WeakLearner K H} {it : Nat} {s : σ} {out : BoostOut σ K} (d : List K)
    (h1 : out.queries = [d]) (h2 : hyps out.state = hyps s ++ [wl it d]) : StepOk hyps wl it s out :=
  .inl ⟨d, h1, by rw [h2]⟩

theorem stepOk_only {hyps : σ → List H} {wl : WeakLearner K H} {it : Nat} {s : σ} {out : BoostOut σ K} (d : List K)
    (h1 : out.queries = [d]) (h2 : hyps out.state = [wl it d]) : StepOk hyps wl it s out :=
  .inl ⟨d, h1, by rw [h2]; exact List.sublist_append_right _ _⟩

theorem stepOk_drop {hyps : σ → List H} {wl : WeakLearner K H} {it : Nat} {s : σ} {out : BoostOut σ K} (d : List K)
    (h1 : out.queries = [d]) (h2 : hyps out.state = hyps s) : StepOk hyps wl it s out :=
  .inl ⟨d, h1, by rw [h2]; exact List.sublist_append_left _ _⟩

/-- **C101** AdaBoost. -/
theorem adaboost_provenance [Classifier H X ℝ] {S : Examples X ℝ} {wl : WeakLearner ℝ H} {s₀ : AdaBoost H} {n : Nat}
    {f : WeightedMajority ℝ H} {qs : List (List ℝ)} (h : (AdaBoost.booster S).run wl n s₀ = some (.ok (f, qs))) :
    FromRun wl qs f.hypotheses := by
  refine run_provenance (AdaBoost.booster S) AdaBoost.hypotheses WeightedMajority.hypotheses ?_ ?_ (fun s f h => fromSlices_sublist h) h
  · intro s s' hp
    simp only [AdaBoost.booster, AdaBoost.preprocess] at hp
    split at hp
    · cases hp
    · injection hp with hp; rw [← hp]
  · intro s it out hb
    simp only [AdaBoost.booster, AdaBoost.boost] at hb
    split at hb
    · injection hb with hb; subst hb; exact stepOk_quit rfl (by simp) rfl
    split at hb
    · injection hb with hb; subst hb; exact stepOk_only _ rfl rfl
    split at hb
    · cases hb
    · injection hb with hb; subst hb; exact stepOk_keep _ rfl rfl

/-- **C101** AdaBoostV. -/
theorem adaboostv_provenance [Classifier H X ℝ] {S : Examples X ℝ} {wl : WeakLearner ℝ H} {s₀ : AdaBoostV H} {n : Nat}
    {f : WeightedMajority ℝ H} {qs : List (List ℝ)} (h : (AdaBoostV.booster S).run wl n s₀ = some (.ok (f, qs))) :
    FromRun wl qs f.hypotheses := by
  refine run_provenance (AdaBoostV.booster S) AdaBoostV.hypotheses WeightedMajority.hypotheses ?_ ?_ (fun s f h => fromSlices_sublist h) h
  · intro s s' hp
    simp only [AdaBoostV.booster, AdaBoostV.preprocess] at hp
    split at hp
    · cases hp
    · injection hp with hp; rw [← hp]
  · intro s it out hb
    simp only [AdaBoostV.booster, AdaBoostV.boost] at hb
    split at hb
    · injection hb with hb; subst hb; exact stepOk_quit rfl (by simp) rfl
    split at hb
    · injection hb with hb; subst hb; exact stepOk_only _ rfl rfl
    split at hb
    · cases hb
    · rename_i w s' hu
      injection hb with hb; subst hb
      have : s'.hypotheses = s.hypotheses := by
        simp only [AdaBoostV.updateParams] at hu
        split at hu
        · split at hu
          · cases hu
          · injection hu with hu; injection hu with h1 h2; rw [← h2]
        · cases hu
      exact stepOk_keep _ rfl (by simp [this])

/-- **C101** MadaBoost. -/
theorem madaboost_provenance [Classifier H X ℝ] {S : Examples X ℝ} {wl : WeakLearner ℝ H} {s₀ : MadaBoost H} {n : Nat}
    {f : WeightedMajority ℝ H} {qs : List (List ℝ)} (h : (MadaBoost.booster S).run wl n s₀ = some (.ok (f, qs))) :
    FromRun wl qs f.hypotheses := by
  refine run_provenance (MadaBoost.booster S) MadaBoost.hypotheses WeightedMajority.hypotheses ?_ ?_ (fun s f h => fromSlices_sublist h) h
  · intro s s' hp
    simp only [MadaBoost.booster, MadaBoost.preprocess] at hp
    split at hp
    · cases hp
    · injection hp with hp; rw [← hp]
  · intro s it out hb
    simp only [MadaBoost.booster, MadaBoost.boost] at hb
    split at hb
    · injection hb with hb; subst hb; exact stepOk_quit rfl (by simp) rfl
    split at hb
    · cases hb
    split at hb
    · injection hb with hb; subst hb; exact stepOk_only _ rfl rfl
    split at hb
    · cases hb
    · injection hb with hb; subst hb; exact stepOk_keep _ rfl rfl

/-- **C101** SmoothBoost. -/
theorem smoothboost_provenance [Classifier H X ℝ] {S : Examples X ℝ} {wl : WeakLearner ℝ H} {s₀ : SmoothBoost H} {n : Nat}
    {f : WeightedMajority ℝ H} {qs : List (List ℝ)} (h : (SmoothBoost.booster S).run wl n s₀ = some (.ok (f, qs))) :
    FromRun wl qs f.hypotheses := by
  refine run_provenance (SmoothBoost.booster S) SmoothBoost.hypotheses WeightedMajority.hypotheses ?_ ?_ ?_ h
  · intro s s' hp
    simp only [SmoothBoost.booster, SmoothBoost.preprocess] at hp
    split at hp
    · cases hp
    split at hp
    · cases hp
    · injection hp with hp; rw [← hp]
  · intro s it out hb
    simp only [SmoothBoost.booster, SmoothBoost.boost] at hb
    split at hb
    · injection hb with hb; subst hb; exact stepOk_quit rfl (by simp) rfl
    split at hb
    · split at hb
      · cases hb
      · injection hb with hb; subst hb; exact stepOk_quit rfl (by simp) rfl
    · injection hb with hb; subst hb; exact stepOk_keep _ rfl rfl
  · intro s f hp
    simp only [SmoothBoost.booster, SmoothBoost.postprocess] at hp
    split at hp
    · cases hp
    · exact fromSlices_sublist hp

/-- **C101** GraphSepBoost. -/
theorem graphsep_provenance [Field K] [LinearOrder K] [IsStrictOrderedRing K] [FloorRing K] [Classifier H X K] {S : Examples X K}
    {wl : WeakLearner K H} {s₀ : GraphSepBoost H} {n : Nat} {f : NaiveAggregation H} {qs : List (List K)}
    (h : (GraphSepBoost.booster S).run wl n s₀ = some (.ok (f, qs))) : FromRun wl qs f.hypotheses := by
  refine run_provenance (GraphSepBoost.booster S) GraphSepBoost.hypotheses NaiveAggregation.hypotheses ?_ ?_ ?_ h
  · intro s s' hp
    simp only [GraphSepBoost.booster, GraphSepBoost.preprocess] at hp
    split at hp
    · cases hp
    · injection hp with hp; rw [← hp]
  · intro s it out hb
    simp only [GraphSepBoost.booster, GraphSepBoost.boost] at hb
    split at hb
    · injection hb with hb; subst hb; exact stepOk_quit rfl (by simp) rfl
    split at hb
    · injection hb with hb; subst hb; exact stepOk_keep _ rfl rfl
    · injection hb with hb; subst hb; exact stepOk_keep _ rfl rfl
  · intro s f hp
    injection hp with hp
    rw [← hp]
    exact List.Sublist.refl _

/-- **C101** GBM. -/
theorem gbm_provenance [Field K] [LinearOrder K] [IsStrictOrderedRing K] [Regressor H X K] {best : List K → List K → Except Panic K}
    {S : Examples X K} {wl : WeakLearner K H} {s₀ : GBM K H} {n : Nat} {f : WeightedMajority K H} {qs : List (List K)}
    (h : (GBM.booster best S).run wl n s₀ = some (.ok (f, qs))) : FromRun wl qs f.hypotheses := by
  refine run_provenance (GBM.booster best S) GBM.hypotheses WeightedMajority.hypotheses ?_ ?_ (fun s f h => fromSlices_sublist h) h
  · intro s s' hp
    injection hp with hp; rw [← hp]
  · intro s it out hb
    simp only [GBM.booster, GBM.boost] at hb
    split at hb
    · injection hb with hb; subst hb; exact stepOk_quit rfl (by simp) rfl
    split at hb
    · cases hb
    split at hb
    · injection hb with hb; subst hb; exact stepOk_drop _ rfl rfl
    · injection hb with hb; subst hb; exact stepOk_keep _ rfl rfl

/-- **C101** LPBoost, for every solver. -/
theorem lpboost_provenance [Field K] [LinearOrder K] [IsStrictOrderedRing K] [FloorRing K] [Classifier H X K] {solver : Solver K}
    {S : Examples X K} {wl : WeakLearner K H} {s₀ : LPBoost K H} {n : Nat} {f : WeightedMajority K H} {qs : List (List K)}
    (h : (LPBoost.booster solver S).run wl n s₀ = some (.ok (f, qs))) : FromRun wl qs f.hypotheses := by
  refine run_provenance (LPBoost.booster solver S) LPBoost.hypotheses WeightedMajority.hypotheses ?_ ?_ ?_ h
  · intro s s' hp
    simp only [LPBoost.booster, LPBoost.preprocess] at hp
    split at hp
    · cases hp
    split at hp
    · cases hp
    · injection hp with hp; rw [← hp]
  · intro s it out hb
    simp only [LPBoost.booster, LPBoost.boost] at hb
    split at hb
    · cases hb
    split at hb
    · cases hb
    split at hb
    · injection hb with hb; subst hb; exact stepOk_keep _ rfl rfl
    · injection hb with hb; subst hb; exact stepOk_keep _ rfl rfl
  · intro s f hp
    simp only [LPBoost.booster, LPBoost.postprocess] at hp
    split at hp
    · cases hp
    · exact fromSlices_sublist hp

/-- **C101** ERLPBoost, for every solver. -/
theorem erlpboost_provenance [Classifier H X ℝ] {solver : Solver ℝ} {fuel : Nat} {S : Examples X ℝ} {wl : WeakLearner ℝ H}
    {s₀ : ERLPBoost H} {n : Nat} {f : WeightedMajority ℝ H} {qs : List (List ℝ)}
    (h : (ERLPBoost.booster solver fuel S).run wl n s₀ = some (.ok (f, qs))) : FromRun wl qs f.hypotheses := by
  refine run_provenance (ERLPBoost.booster solver fuel S) ERLPBoost.hypotheses WeightedMajority.hypotheses ?_ ?_ ?_ h
  · intro s s' hp
    simp only [ERLPBoost.booster, ERLPBoost.preprocess] at hp
    split at hp
    · cases hp
    split at hp
    · split at hp
      · cases hp
      · simp only [ERLPBoost.initSolver, ERLPBoost.regularizationParam] at hp
        split at hp
        · cases hp
        · injection hp with hp; rw [← hp]
    · cases hp
  · intro s it out hb
    simp only [ERLPBoost.booster, ERLPBoost.boost] at hb
    split at hb
    · injection hb with hb; subst hb; exact stepOk_quit rfl (by simp) rfl
    split at hb
    · injection hb with hb; subst hb; exact stepOk_drop _ rfl rfl
    split at hb
    · cases hb
    split at hb
    · cases hb
    split at hb
    · cases hb
    · injection hb with hb; subst hb; exact stepOk_keep _ rfl rfl
  · intro s f hp
    simp only [ERLPBoost.booster, ERLPBoost.postprocess] at hp
    split at hp
    · cases hp
    · exact fromSlices_sublist hp

theorem soft_stepOk [Classifier H X ℝ] {solver : Solver ℝ} {fuel : Nat} {S : Examples X ℝ} {wl : WeakLearner ℝ H} {s : SoftBoost H}
    {it : Nat} {out : BoostOut (SoftBoost H) ℝ} (hb : (SoftBoost.booster solver fuel S).boost s wl it = .ok out) :
    StepOk SoftBoost.hypotheses wl it s out := by
  simp only [SoftBoost.booster, SoftBoost.boost] at hb
  split at hb
  · injection hb with hb; subst hb; exact stepOk_quit rfl (by simp) rfl
  split at hb
  · cases hb
  split at hb
  · cases hb
  split at hb
  · injection hb with hb; subst hb; exact stepOk_keep _ rfl rfl
  · injection hb with hb; subst hb; exact stepOk_keep _ rfl rfl

theorem soft_fresh [Classifier H X ℝ] {solver : Solver ℝ} {fuel : Nat} {S : Examples X ℝ} {wl : WeakLearner ℝ H} {s s' : SoftBoost H}
    (hp : (SoftBoost.booster solver fuel S).preprocess s wl = .ok s') : s'.hypotheses = [] := by
  simp only [SoftBoost.booster, SoftBoost.preprocess] at hp
  split at hp
  · cases hp
  split at hp
  · cases hp
  simp only [SoftBoost.initSolver] at hp
  split at hp
  · cases hp
  · injection hp with hp; rw [← hp]

theorem soft_kept [Classifier H X ℝ] {solver : Solver ℝ} {fuel : Nat} {S : Examples X ℝ} {s : SoftBoost H} {f : WeightedMajority ℝ H}
    (hp : (SoftBoost.booster solver fuel S).postprocess s = .ok f) : f.hypotheses.Sublist s.hypotheses := by
  simp only [SoftBoost.booster, SoftBoost.postprocess] at hp
  split at hp
  · cases hp
  split at hp
  · cases hp
  · exact fromSlices_sublist hp

/-- **C101** SoftBoost, for every solver. -/
theorem softboost_provenance [Classifier H X ℝ] {solver : Solver ℝ} {fuel : Nat} {S : Examples X ℝ} {wl : WeakLearner ℝ H}
    {s₀ : SoftBoost H} {n : Nat} {f : WeightedMajority ℝ H} {qs : List (List ℝ)}
    (h : (SoftBoost.booster solver fuel S).run wl n s₀ = some (.ok (f, qs))) : FromRun wl qs f.hypotheses :=
  run_provenance (SoftBoost.booster solver fuel S) SoftBoost.hypotheses WeightedMajority.hypotheses (fun _ _ => soft_fresh)
    (fun _ _ _ => soft_stepOk) (fun _ _ => soft_kept) h

/-- **C101** TotalBoost, for every solver. -/
theorem totalboost_provenance [Classifier H X ℝ] {solver : Solver ℝ} {fuel : Nat} {S : Examples X ℝ} {wl : WeakLearner ℝ H}
    {s₀ : TotalBoost H} {n : Nat} {f : WeightedMajority ℝ H} {qs : List (List ℝ)}
    (h : (TotalBoost.booster solver fuel S).run wl n s₀ = some (.ok (f, qs))) : FromRun wl qs f.hypotheses := by
  refine run_provenance (TotalBoost.booster solver fuel S) (fun s => s.softboost.hypotheses) WeightedMajority.hypotheses ?_ ?_
    (fun _ _ hp => soft_kept (solver := solver) (fuel := fuel) (S := S) hp) h
  · intro s s' hp
    simp only [TotalBoost.booster] at hp
    cases e : (SoftBoost.booster solver fuel S).preprocess s.softboost wl with
    | error p => rw [e] at hp; cases hp
    | ok t => rw [e] at hp; injection hp with hp; rw [← hp]; exact soft_fresh e
  · intro s it out hb
    simp only [TotalBoost.booster] at hb
    cases e : (SoftBoost.booster solver fuel S).boost s.softboost wl it with
    | error p => rw [e] at hb; cases hb
    | ok t => rw [e] at hb; injection hb with hb; subst hb; exact soft_stepOk e

/-- **C101** CERLPBoost. -/
theorem cerlp_provenance [Classifier H X ℝ] [BEq H] {S : Examples X ℝ} {wl : WeakLearner ℝ H} {s₀ : CERLPBoost H} {n : Nat}
    {f : WeightedMajority ℝ H} {qs : List (List ℝ)} (h : (CERLPBoost.booster S).run wl n s₀ = some (.ok (f, qs))) :
    FromRun wl qs f.hypotheses := by
  refine run_provenance (CERLPBoost.booster S) CERLPBoost.hypotheses WeightedMajority.hypotheses ?_ ?_ (fun s f h => fromSlices_sublist h) h
  · intro s s' hp
    simp only [CERLPBoost.booster, CERLPBoost.preprocess] at hp
    split at hp
    · cases hp
    · injection hp with hp; rw [← hp]
  · intro s it out hb
    simp only [CERLPBoost.booster, CERLPBoost.boost] at hb
    split at hb
    · injection hb with hb; subst hb; exact stepOk_quit rfl (by simp) rfl
    split at hb
    · cases hb
    split at hb
    · injection hb with hb; subst hb; exact stepOk_drop _ rfl rfl
    split at hb
    · cases hb
    · injection hb with hb; subst hb
      refine .inl ⟨_, rfl, ?_⟩
      dsimp only
      split
      · exact List.Sublist.refl _
      · exact List.sublist_append_left _ _

/-- **C101** MLPBoost, for every solver. -/
theorem mlp_provenance [Classifier H X ℝ] [BEq H] {solver : Solver ℝ} {noise : Nat → Nat → ℝ} {S : Examples X ℝ} {wl : WeakLearner ℝ H}
    {s₀ : MLPBoost H} {n : Nat} {f : WeightedMajority ℝ H} {qs : List (List ℝ)}
    (h : (MLPBoost.booster solver noise S).run wl n s₀ = some (.ok (f, qs))) : FromRun wl qs f.hypotheses := by
  refine run_provenance (MLPBoost.booster solver noise S) MLPBoost.hypotheses WeightedMajority.hypotheses ?_ ?_
    (fun s f h => fromSlices_sublist h) h
  · intro s s' hp
    simp only [MLPBoost.booster, MLPBoost.preprocess] at hp
    split at hp
    · cases hp
    split at hp
    · cases hp
    · injection hp with hp; rw [← hp]
  · intro s it out hb
    simp only [MLPBoost.booster, MLPBoost.boost] at hb
    split at hb
    · injection hb with hb; subst hb; exact stepOk_quit rfl (by simp) rfl
    split at hb
    · cases hb
    split at hb
    · cases hb
    split at hb
    · split at hb
      · cases hb
      · injection hb with hb; subst hb; exact stepOk_keep _ rfl rfl
    split at hb
    · cases hb
    split at hb
    · injection hb with hb; subst hb; exact stepOk_drop _ rfl rfl
    split at hb
    · cases hb
    split at hb
    · cases hb
    split at hb
    · cases hb
    split at hb
    · cases hb
    · injection hb with hb; subst hb
      refine .inl ⟨_, rfl, ?_⟩
      dsimp only
      split
      · exact List.Sublist.refl _
      · exact List.sublist_append_left _ _

/-- What `FromRun` gives a user: each hypothesis of the result is the weak learner's answer to one of the weight vectors of this run, and there
are no more hypotheses than calls. -/
theorem fromRun_iff_index {wl : WeakLearner K H} {qs : List (List K)} {hs : List H} (h : FromRun wl qs hs) :
    hs.length ≤ qs.length ∧ ∀ g ∈ hs, ∃ i, ∃ hi : i < qs.length, g = wl (i + 1) qs[i] := by
  refine ⟨by simpa [answers] using h.length_le, fun g hg => ?_⟩
  have := h.subset hg
  simp only [answers, List.mem_mapIdx] at this
  obtain ⟨i, hi, e⟩ := this
  exact ⟨i, hi, e.symm⟩

end Miniboosts.Props
