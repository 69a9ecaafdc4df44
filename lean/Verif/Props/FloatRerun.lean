import Verif.Spec.FloatRerun
import Verif.Props.Rerun
import Verif.Model.FloatAdaBoostV
import Verif.Model.FloatMada
import Verif.Model.FloatSmooth
import Verif.Model.FloatGraphSep
import Verif.Model.FloatGBM
import Verif.Model.FloatMLP
import Verif.Props.FloatMLP

/-! # C131: a booster object can be run again, in `f64` and with any order of the parallel sums -/

set_option linter.unusedSectionVars false

namespace Miniboosts.Props

open Miniboosts Spec F64

section general

variable {σ K H O C : Type*}

/-- A setting that neither `preprocess` nor `boost` changes is not changed by any number of runs. -/
theorem par_used_setting (B : ParBooster σ K H O) (c : σ → C) (hpre : ∀ s wl s', B.preprocess s wl = .ok s' → c s' = c s)
    (hboost : ∀ s wl n out, B.boost s wl n (.ok out) → c out.state = c s) {s s' : σ} (h : ParUsed B s s') : c s' = c s := by
  have hreach : ∀ {wl n s s'}, ParReach B wl s n s' → c s' = c s := by
    intro wl n s s' hr
    induction hr with
    | start h => exact hpre _ _ _ h
    | step hr hb ih => rw [hboost _ _ _ _ hb, ih]
  induction h with
  | fresh => rfl
  | again wl n hu hl ih => rw [← ih, hreach hl]

/-- Two results of a round that differ only in states related by `R`. -/
private def SameOut (R : σ → σ → Prop) : Except Panic (BoostOut σ K) → Except Panic (BoostOut σ K) → Prop
  | .error e, .error e' => e = e'
  | .ok a, .ok b => a.flow = b.flow ∧ a.queries = b.queries ∧ R a.state b.state
  | _, _ => False

private def SameEnd (R : σ → σ → Prop) : Except Panic (σ × List (List K)) → Except Panic (σ × List (List K)) → Prop
  | .error e, .error e' => e = e'
  | .ok a, .ok b => a.2 = b.2 ∧ R a.1 b.1
  | _, _ => False

private theorem loop_same (B : ParBooster σ K H O) (wl : WeakLearner K H) (R : σ → σ → Prop)
    (hb : ∀ s t it r, R s t → B.boost s wl it r → ∃ r', B.boost t wl it r' ∧ SameOut R r r') {s : σ} {it : ℕ} {r : Except Panic (σ × List (List K))} (h : B.Loop wl s it r) :
    ∀ t, R s t → ∃ r', B.Loop wl t it r' ∧ SameEnd R r r' := by
  induction h with
  | panic h =>
    intro t ht
    obtain ⟨r', h1, h2⟩ := hb _ _ _ _ ht h
    match r', h1, h2 with
    | .error e', h1, h2 => exact ⟨.error e', .panic h1, h2⟩
  | stop h hf =>
    intro t ht
    obtain ⟨r', h1, h2⟩ := hb _ _ _ _ ht h
    match r', h1, h2 with
    | .ok o, h1, h2 => exact ⟨_, .stop h1 (h2.1.symm.trans hf), h2.2.1, h2.2.2⟩
  | @next s it out r h hf hr ih =>
    intro t ht
    obtain ⟨r', h1, h2⟩ := hb _ _ _ _ ht h
    match r', h1, h2 with
    | .ok o, h1, h2 =>
      obtain ⟨r'', h3, h4⟩ := ih _ h2.2.2
      refine ⟨_, .next h1 (h2.1.symm.trans hf) h3, ?_⟩
      match r, r'', h4 with
      | .error e, .error e', h4 => exact h4
      | .ok a, .ok b, h4 => exact ⟨by simp [h2.2.1, h4.1], h4.2⟩

/-- If two states lead to related states after `preprocess`, they have the same runs. -/
private theorem runs_same (B : ParBooster σ K H O) (wl : WeakLearner K H) (R : σ → σ → Prop)
    (hb : ∀ s t it r, R s t → B.boost s wl it r → ∃ r', B.boost t wl it r' ∧ SameOut R r r') (hpost : ∀ s t, R s t → B.postprocess s = B.postprocess t) {s t : σ}
    (hpre : (∃ e, B.preprocess s wl = .error e ∧ B.preprocess t wl = .error e) ∨ ∃ s₀ t₀, B.preprocess s wl = .ok s₀ ∧ B.preprocess t wl = .ok t₀ ∧ R s₀ t₀)
    {r : Except Panic (O × List (List K))} (h : B.Runs wl s r) : B.Runs wl t r := by
  rcases hpre with ⟨e, h1, h2⟩ | ⟨s₀, t₀, h1, h2, h3⟩
  · cases h with
    | pre h => rw [h1] at h; cases h; exact .pre h2
    | loop h => rw [h1] at h; cases h
    | post h => rw [h1] at h; cases h
    | ok h => rw [h1] at h; cases h
  · cases h with
    | pre h => rw [h1] at h; cases h
    | loop h hl =>
      rw [h1] at h; cases h
      obtain ⟨r', k1, k2⟩ := loop_same B wl R hb hl _ h3
      match r', k1, k2 with
      | .error e', k1, k2 => cases (show _ = _ from k2); exact .loop h2 k1
    | post h hl hp =>
      rw [h1] at h; cases h
      obtain ⟨r', k1, k2⟩ := loop_same B wl R hb hl _ h3
      match r', k1, k2 with
      | .ok a, k1, k2 => exact .post h2 k1 (by rw [← hpost _ _ k2.2]; exact hp)
    | ok h hl hp =>
      rw [h1] at h; cases h
      obtain ⟨r', k1, k2⟩ := loop_same B wl R hb hl _ h3
      match r', k1, k2 with
      | .ok a, k1, k2 =>
        have := k2.1
        subst this
        exact .ok h2 k1 (by rw [← hpost _ _ k2.2]; exact hp)

private theorem run_of_pre (B : Booster σ K H O) (wl : WeakLearner K H) (fuel : ℕ) {s t : σ} (h : B.preprocess s wl = B.preprocess t wl) : B.run wl fuel s = B.run wl fuel t := by
  unfold Booster.run
  rw [h]

private theorem runs_of_pre (B : ParBooster σ K H O) (wl : WeakLearner K H) {s t : σ} (h : B.preprocess s wl = B.preprocess t wl) (r : Except Panic (O × List (List K))) :
    B.Runs wl s r ↔ B.Runs wl t r := by
  have key : ∀ {s t : σ}, B.preprocess s wl = B.preprocess t wl → B.Runs wl s r → B.Runs wl t r := by
    intro s t h hr
    cases hr with
    | pre h1 => exact .pre (h ▸ h1)
    | loop h1 h2 => exact .loop (h ▸ h1) h2
    | post h1 h2 h3 => exact .post (h ▸ h1) h2 h3
    | ok h1 h2 h3 => exact .ok (h ▸ h1) h2 h3
  exact ⟨key h, key h.symm⟩

end general

section classifiers

variable {H X : Type*} [Classifier H X F64]

/-- C131 for AdaBoost: after any number of earlier runs the possible results are those of a fresh object. -/
theorem adaboost_f64_rerun (L : Libm) (S : Examples X ℝ) (s s' : AdaBoostF H) (h : ParUsed (AdaBoostF.booster L S) s s') (wl : WeakLearner F64 H) (r) :
    (AdaBoostF.booster L S).Runs wl s' r ↔ (AdaBoostF.booster L S).Runs wl s r := by
  have hc := par_used_setting (AdaBoostF.booster L S) (fun s => (s.tolerance, s.forceQuitAt)) (by
    intro s wl s' h
    simp only [AdaBoostF.booster, AdaBoostF.preprocess] at h
    split at h
    · cases h
    · cases h; rfl) (by
    intro s wl n out h
    simp only [AdaBoostF.booster, AdaBoostF.Boost] at h
    split at h
    · cases h; rfl
    · obtain ⟨edge, -, ⟨-, h⟩ | ⟨-, d, -, h⟩⟩ := h
      · cases h; rfl
      · cases d <;> cases h; rfl) h
  simp only [Prod.mk.injEq] at hc
  have key : ∀ s t : AdaBoostF H, s.tolerance = t.tolerance → s.forceQuitAt = t.forceQuitAt → (AdaBoostF.booster L S).Runs wl s r → (AdaBoostF.booster L S).Runs wl t r := by
    intro s t e1 e2
    refine runs_same _ wl (fun s t : AdaBoostF H => t = { s with terminated := t.terminated }) ?_ ?_ ?_
    · intro s t it r e hb
      change AdaBoostF.Boost L S s wl it r at hb
      change ∃ r', AdaBoostF.Boost L S t wl it r' ∧ _
      rw [e]
      unfold AdaBoostF.Boost at hb ⊢
      dsimp only at hb ⊢
      split at hb
      · rename_i hm
        subst hb
        simp only [if_pos hm]
        exact ⟨_, rfl, rfl, rfl, rfl⟩
      · rename_i hm
        simp only [if_neg hm]
        obtain ⟨edge, h1, ⟨h2, h3⟩ | ⟨h2, d, h3, h4⟩⟩ := hb
        · subst h3
          exact ⟨_, ⟨edge, h1, .inl ⟨h2, rfl⟩⟩, rfl, rfl, rfl⟩
        · subst h4
          refine ⟨_, ⟨edge, h1, .inr ⟨h2, d, h3, rfl⟩⟩, ?_⟩
          cases d with
          | error e => rfl
          | ok d => exact ⟨rfl, rfl, rfl⟩
    · intro s t e
      rw [e]
      rfl
    · simp only [AdaBoostF.booster, AdaBoostF.preprocess]
      cases checkBinary S with
      | error e => exact .inl ⟨e, rfl, rfl⟩
      | ok _ => exact .inr ⟨_, _, rfl, rfl, by simp only [e1, e2]⟩
  exact ⟨key _ _ hc.1 hc.2, key _ _ hc.1.symm hc.2.symm⟩

/-- C131 for AdaBoostV. -/
theorem adaboostv_f64_rerun (L : Libm) (S : Examples X ℝ) (s s' : AdaBoostVF H) (h : ParUsed (AdaBoostVF.booster L S) s s') (wl : WeakLearner F64 H) (r) :
    (AdaBoostVF.booster L S).Runs wl s' r ↔ (AdaBoostVF.booster L S).Runs wl s r := by
  have hc := par_used_setting (AdaBoostVF.booster L S) (fun s => (s.tolerance, s.forceQuitAt)) (by
    intro s wl s' h
    simp only [AdaBoostVF.booster, AdaBoostVF.preprocess] at h
    split at h
    · cases h
    · cases h; rfl) (by
    intro s wl n out h
    simp only [AdaBoostVF.booster, AdaBoostVF.Boost] at h
    split at h
    · cases h; rfl
    · obtain ⟨edge, -, ⟨-, h⟩ | ⟨-, d, -, h⟩⟩ := h
      · cases h; rfl
      · cases d <;> cases h; rfl) h
  simp only [Prod.mk.injEq] at hc
  have key : ∀ s t : AdaBoostVF H, s.tolerance = t.tolerance → s.forceQuitAt = t.forceQuitAt → (AdaBoostVF.booster L S).Runs wl s r → (AdaBoostVF.booster L S).Runs wl t r := by
    intro s t e1 e2
    refine runs_same _ wl (fun s t : AdaBoostVF H => t = { s with terminated := t.terminated }) ?_ ?_ ?_
    · intro s t it r e hb
      change AdaBoostVF.Boost L S s wl it r at hb
      change ∃ r', AdaBoostVF.Boost L S t wl it r' ∧ _
      rw [e]
      unfold AdaBoostVF.Boost at hb ⊢
      dsimp only at hb ⊢
      split at hb
      · rename_i hm
        subst hb
        simp only [if_pos hm]
        exact ⟨_, rfl, rfl, rfl, rfl⟩
      · rename_i hm
        simp only [if_neg hm]
        obtain ⟨edge, h1, ⟨h2, h3⟩ | ⟨h2, d, h3, h4⟩⟩ := hb
        · subst h3
          exact ⟨_, ⟨edge, h1, .inl ⟨h2, rfl⟩⟩, rfl, rfl, rfl⟩
        · subst h4
          refine ⟨_, ⟨edge, h1, .inr ⟨h2, d, h3, rfl⟩⟩, ?_⟩
          cases d with
          | error e => rfl
          | ok d => exact ⟨rfl, rfl, rfl⟩
    · intro s t e
      rw [e]
      rfl
    · simp only [AdaBoostVF.booster, AdaBoostVF.preprocess]
      cases checkBinary S with
      | error e => exact .inl ⟨e, rfl, rfl⟩
      | ok _ => exact .inr ⟨_, _, rfl, rfl, by simp only [e1, e2, AdaBoostVF.maxLoop]⟩
  exact ⟨key _ _ hc.1 hc.2, key _ _ hc.1.symm hc.2.symm⟩

/-- C131 for MadaBoost. -/
theorem madaboost_f64_rerun (L : Libm) (S : Examples X ℝ) (s s' : MadaBoostF H) (h : ParUsed (MadaBoostF.booster L S) s s') (wl : WeakLearner F64 H) (r) :
    (MadaBoostF.booster L S).Runs wl s' r ↔ (MadaBoostF.booster L S).Runs wl s r := by
  have hc := par_used_setting (MadaBoostF.booster L S) (fun s => (s.tolerance, s.forceQuitAt)) (by
    intro s wl s' h
    simp only [MadaBoostF.booster, MadaBoostF.preprocess] at h
    split at h
    · cases h
    · cases h; rfl) (by
    intro s wl n out h
    simp only [MadaBoostF.booster, MadaBoostF.Boost] at h
    split at h
    · cases h; rfl
    · obtain ⟨d, -, h⟩ := h
      cases d with
      | error e => cases h
      | ok dist =>
        obtain ⟨edge, -, ⟨-, h⟩ | ⟨-, p, -, h⟩⟩ := h
        · cases h; rfl
        · cases p <;> cases h; rfl) h
  simp only [Prod.mk.injEq] at hc
  have key : ∀ s t : MadaBoostF H, s.tolerance = t.tolerance → s.forceQuitAt = t.forceQuitAt → (MadaBoostF.booster L S).Runs wl s r → (MadaBoostF.booster L S).Runs wl t r := by
    intro s t e1 e2
    refine runs_same _ wl (fun s t : MadaBoostF H => t = { s with terminated := t.terminated }) ?_ ?_ ?_
    · intro s t it r e hb
      change MadaBoostF.Boost L S s wl it r at hb
      change ∃ r', MadaBoostF.Boost L S t wl it r' ∧ _
      rw [e]
      unfold MadaBoostF.Boost at hb ⊢
      dsimp only at hb ⊢
      split at hb
      · rename_i hm
        subst hb
        simp only [if_pos hm]
        exact ⟨_, rfl, rfl, rfl, rfl⟩
      · rename_i hm
        simp only [if_neg hm]
        obtain ⟨d, h0, hb⟩ := hb
        cases d with
        | error e =>
          dsimp only at hb
          subst hb
          exact ⟨_, ⟨_, h0, rfl⟩, rfl⟩
        | ok dist =>
          obtain ⟨edge, h1, ⟨h2, h3⟩ | ⟨h2, d, h3, h4⟩⟩ := hb
          · subst h3
            exact ⟨_, ⟨_, h0, edge, h1, .inl ⟨h2, rfl⟩⟩, rfl, rfl, rfl⟩
          · subst h4
            refine ⟨_, ⟨_, h0, edge, h1, .inr ⟨h2, d, h3, rfl⟩⟩, ?_⟩
            cases d with
            | error e => rfl
            | ok d => exact ⟨rfl, rfl, rfl⟩
    · intro s t e
      rw [e]
      rfl
    · simp only [MadaBoostF.booster, MadaBoostF.preprocess]
      cases checkBinary S with
      | error e => exact .inl ⟨e, rfl, rfl⟩
      | ok _ => exact .inr ⟨_, _, rfl, rfl, by simp only [e1, e2, MadaBoostF.maxLoop]⟩
  exact ⟨key _ _ hc.1 hc.2, key _ _ hc.1.symm hc.2.symm⟩

/-- C131 for SmoothBoost. -/
theorem smoothboost_f64_rerun (P : Powm) (S : Examples X ℝ) (s s' : SmoothBoostF H) (h : Used (SmoothBoostF.booster P S) s s') (wl : WeakLearner F64 H) (fuel : ℕ) :
    (SmoothBoostF.booster P S).run wl fuel s' = (SmoothBoostF.booster P S).run wl fuel s := by
  have hc := used_setting (SmoothBoostF.booster P S) (fun s => (s.kappa, s.gamma)) (by
    intro s wl s' h
    simp only [SmoothBoostF.booster, SmoothBoostF.preprocess] at h
    repeat' split at h
    all_goals first | (cases h; rfl) | cases h) (by
    intro s wl n out h
    simp only [SmoothBoostF.booster, SmoothBoostF.boost] at h
    repeat' split at h
    all_goals first | (cases h; rfl) | cases h) h
  simp only [Prod.mk.injEq] at hc
  refine run_of_pre _ _ _ ?_
  obtain ⟨h1, h2⟩ := hc
  clear h
  cases s
  cases s'
  dsimp only at h1 h2
  subst h1 h2
  rfl

/-- C131 for GraphSepBoost. -/
theorem graphsep_f64_rerun (S : Examples X ℝ) (s s' : GraphSepBoost H) (_h : Used (GraphSepF.booster S) s s') (wl : WeakLearner F64 H) (fuel : ℕ) :
    (GraphSepF.booster S).run wl fuel s' = (GraphSepF.booster S).run wl fuel s := rfl

/-- C131 for CERLPBoost. -/
theorem cerlp_f64_rerun [BEq H] (L : Libm) (other : FWType → Nat → List F64 → List H → Nat → List F64 → Except Panic (List F64)) (S : Examples X ℝ) (s s' : CERLPBoostF H)
    (h : Used (CERLPBoostF.booster L other S) s s') (wl : WeakLearner F64 H) (fuel : ℕ) :
    (CERLPBoostF.booster L other S).run wl fuel s' = (CERLPBoostF.booster L other S).run wl fuel s := by
  have hc := used_setting (CERLPBoostF.booster L other S) (fun s => (s.nu, s.halfTolerance, s.fwType)) (by
    intro s wl s' h
    simp only [CERLPBoostF.booster, CERLPBoostF.preprocess, CERLPBoostF.regularizationParam] at h
    repeat' split at h
    all_goals first | (cases h; rfl) | cases h) (by
    intro s wl n out h
    simp only [CERLPBoostF.booster, CERLPBoostF.boost] at h
    repeat' split at h
    all_goals first | (cases h; rfl) | cases h) h
  simp only [Prod.mk.injEq] at hc
  refine run_of_pre _ _ _ ?_
  simp only [CERLPBoostF.booster, CERLPBoostF.preprocess, CERLPBoostF.regularizationParam, CERLPBoostF.maxLoop, hc.1, hc.2.1, hc.2.2]

/-- C131 for MLPBoost, with a solver whose answer is determined by its input. -/
theorem mlp_f64_rerun [BEq H] (L : Libm) (other : FWType → Nat → List F64 → List H → Nat → List F64 → Except Panic (List F64)) (lp : MLPBoostF.Lp H) (S : Examples X ℝ) (s s' : MLPBoostF H)
    (h : Used (MLPBoostF.booster L other lp S) s s') (wl : WeakLearner F64 H) (fuel : ℕ) :
    (MLPBoostF.booster L other lp S).run wl fuel s' = (MLPBoostF.booster L other lp S).run wl fuel s := by
  have hc := used_setting (MLPBoostF.booster L other lp S) (fun s => (s.nu, s.halfTolerance, s.fwType)) (by
    intro s wl s' h
    simp only [MLPBoostF.booster, MLPBoostF.preprocess] at h
    repeat' split at h
    all_goals first | (cases h; rfl) | cases h) (by
    intro s wl n out h
    simp only [MLPBoostF.booster, MLPBoostF.boost] at h
    repeat' split at h
    all_goals first | (cases h; rfl) | cases h) h
  simp only [Prod.mk.injEq] at hc
  refine run_of_pre _ _ _ ?_
  simp only [MLPBoostF.booster, MLPBoostF.preprocess, MLPBoostF.maxLoop, hc.1, hc.2.1, hc.2.2]

end classifiers

/-- C131 for GBM. -/
theorem gbm_f64_rerun {H X : Type*} [Regressor H X F64] (S : Examples X ℝ) (s s' : GBMF H) (h : ParUsed (GBMF.booster S) s s') (wl : WeakLearner F64 H) (r) :
    (GBMF.booster S).Runs wl s' r ↔ (GBMF.booster S).Runs wl s r := by
  have hc := par_used_setting (GBMF.booster S) (fun s => (s.tolerance, s.loss, s.maxIter)) (by
    intro s wl s' h
    cases h; rfl) (by
    intro s wl n out h
    simp only [GBMF.booster, GBMF.Boost] at h
    split at h
    · cases h; rfl
    · split at h
      · cases h
      · split at h
        · cases h; rfl
        · obtain ⟨new, -, h⟩ := h
          cases h; rfl) h
  simp only [Prod.mk.injEq] at hc
  refine runs_of_pre _ _ ?_ r
  simp only [GBMF.booster, GBMF.preprocess, hc.1, hc.2.1, hc.2.2]


/-- The hypotheses are met: the state the example of C130 leaves behind, in which the object holds the votes of that run. -/
theorem exMlpF_used : ∃ s', Used (MLPBoostF.booster exLibm (fun _ _ _ _ _ ws => .ok ws) nanLpF exCerlpPair) exMlpF s' ∧ s'.weights ≠ [] := by
  obtain ⟨f, qs, hrun, -, -⟩ := exMlpF_run
  obtain ⟨n, qs', s', out, k, r1, -, r3, r4, -, r6⟩ := Booster.run_spec _ _ exMlpF hrun
  refine ⟨out.state, .again .fresh (.finished _ n qs' s' out k r1 r3 r4 rfl), ?_⟩
  intro h0
  have e3 : fromSlices out.state.weights out.state.hypotheses = .ok f := r6
  rw [h0] at e3
  unfold fromSlices F64.normalize at e3
  simp [Except.map] at e3

end Miniboosts.Props
