import Verif.Props.Research

/-! # C102: logging each of the boosters -/

namespace Miniboosts.Props

open Miniboosts Spec Real

variable {X H T : Type*}

/-- A logger with all its parts. -/
def loggerOf {σ K H O T : Type*} (B : Booster σ K H O) (current : σ → Except Panic O) (objective loss : T → O → Except Panic K) (train test : T)
    (limit round : Nat) : Logger σ K H O T :=
  { booster := B, current := current, objective := objective, loss := loss, train := train, test := test, timeLimit := limit, round := round }

section margin

variable [Classifier H X ℝ] {objective loss : T → WeightedMajority ℝ H → Except Panic ℝ} {train test : T} {limit round : Nat} {w : World}

/-- The uniform distribution of the first round. -/
noncomputable def uniform (S : Examples X ℝ) : List ℝ := List.replicate S.length (1 / (S.length : ℝ))

/-- The edge of the weak learner's first answer. -/
noncomputable def firstEdge (S : Examples X ℝ) (wl : WeakLearner ℝ H) : ℝ := Spec.edge S (uniform S) (conf (wl 1 (uniform S)))

theorem adaboost_first {S : Examples X ℝ} {s₀ : AdaBoost H} {wl : WeakLearner ℝ H} {n : Nat} {qs : List (List ℝ)} {st : AdaBoost H}
    (hr : (AdaBoost.booster S).Reachable wl s₀ n qs st) :
    (n = 0 → st.dist = uniform S) ∧ (∀ k, n = k + 1 → ∃ rest, Spec.edges S conf qs st.hypotheses = firstEdge S wl :: rest ∧ rest.length = k) := by
  induction hr with
  | start hp =>
    refine ⟨fun _ => ?_, fun k hk => by omega⟩
    simp only [AdaBoost.booster, AdaBoost.preprocess] at hp
    split at hp
    · cases hp
    · injection hp with hp; rw [← hp]; rfl
  | @step n qs s₁ out hr hb hf ih =>
    refine ⟨fun h => by omega, fun k hk => ?_⟩
    have hi := AdaBoost.inv_of_reachable hr
    obtain ⟨h1, h2, h3, h4⟩ := AdaBoost.boost_cont hi.ne hi.dist hb hf
    rw [h3, h4]
    simp only [edges_append S qs s₁.hypotheses (by rw [hi.qlen, hi.hlen])]
    rcases Nat.eq_zero_or_pos n with rfl | hn
    · have e1 : qs = [] := List.length_eq_zero_iff.1 hi.qlen
      rw [e1, ih.1 rfl]
      exact ⟨[], rfl, by simp; omega⟩
    · obtain ⟨rest, e, hl⟩ := ih.2 (n - 1) (by omega)
      rw [e]
      exact ⟨rest ++ [_], rfl, by simp; omega⟩

theorem madaboost_first {S : Examples X ℝ} {s₀ : MadaBoost H} {wl : WeakLearner ℝ H} {n : Nat} {qs : List (List ℝ)} {st : MadaBoost H}
    (hr : (MadaBoost.booster S).Reachable wl s₀ n qs st) :
    ∀ k, n = k + 1 → ∃ rest, Spec.edges S conf qs st.hypotheses = firstEdge S wl :: rest ∧ rest.length = k := by
  induction hr with
  | start hp => intro k hk; omega
  | @step n qs s₁ out hr hb hf ih =>
    intro k hk
    have hi := MadaBoost.inv_of_reachable hr
    have hbc := MadaBoost.boost_cases (wl := wl) (it := n + 1) hi.ne hi.betas
    simp only [] at hbc
    rw [show (MadaBoost.booster S).boost s₁ wl (n + 1) = MadaBoost.boost S s₁ wl (n + 1) from rfl, hbc] at hb
    split at hb
    · injection hb with hb; rw [← hb] at hf; cases hf
    split at hb
    · injection hb with hb; rw [← hb] at hf; cases hf
    injection hb with hb
    rw [← hb]
    simp only [edges_append S qs s₁.hypotheses (by rw [hi.qlen, hi.hlen])]
    rcases Nat.eq_zero_or_pos n with rfl | hn
    · have e1 : qs = [] := List.length_eq_zero_iff.1 hi.qlen
      have e2 : s₁.hypotheses = [] := List.length_eq_zero_iff.1 hi.hlen
      rw [e1, e2]
      refine ⟨[], ?_, by simp; omega⟩
      have hc : MadaBoost.clip S (weightedConf ((Spec.edges S conf ([] : List (List ℝ)) ([] : List H)).map MadaBoost.betaOf) ([] : List H)) = uniform S := by
        unfold MadaBoost.clip uniform
        rw [List.eq_replicate_iff]
        refine ⟨by simp, ?_⟩
        intro b hb
        obtain ⟨e, he, rfl⟩ := List.mem_map.1 hb
        have hz : ∀ x : X, weightedConf ((Spec.edges S conf ([] : List (List ℝ)) ([] : List H)).map MadaBoost.betaOf) ([] : List H) x = (0 : ℝ) := by
          intro x; simp [weightedConf]
        simp only [hz, mul_zero, add_zero, List.map_const', List.sum_replicate, nsmul_eq_mul]
        have hl : (0 : ℝ) < S.length := by
          have := List.length_pos_of_ne_nil hi.ne
          exact_mod_cast this
        have := exp_pos (min (1 / (S.length : ℝ)) 1)
        field_simp
      simp only [hc]
      rfl
    · obtain ⟨rest, e, hl⟩ := ih (n - 1) (by omega)
      rw [e]
      exact ⟨rest ++ [_], rfl, by simp; omega⟩

theorem run_first {σ K O : Type*} {B : Booster σ K H O} {wl : WeakLearner K H} {s : σ} {fuel : Nat} {o : O} {qs : List (List K)}
    (h : B.run wl fuel s = some (.ok (o, qs))) :
    (∃ qs' st, B.Reachable wl s 1 qs' st) ∨
      ∃ s₁ out k, B.preprocess s wl = .ok s₁ ∧ B.boost s₁ wl 1 = .ok out ∧ out.flow = .brk k ∧ B.postprocess out.state = .ok o := by
  obtain ⟨n, qs', st, out, k, hr, -, hb, hf, -, hp⟩ := B.run_spec wl s h
  rcases Nat.eq_zero_or_pos n with rfl | hn
  · right
    cases hr with
    | start hpre => exact ⟨st, out, k, hpre, hb, hf, hp⟩
  · left
    rcases Nat.lt_or_ge 1 n with h1 | h1
    · obtain ⟨qs'', s'', -, hr', -⟩ := reachable_earlier hr 1 h1
      exact ⟨_, _, hr'⟩
    · have : n = 1 := by omega
      subst this
      exact ⟨_, _, hr⟩

theorem sole_vote {a : ℝ} {h : H} {f : WeightedMajority ℝ H} (hf : WeightedMajority.fromSlices [a] [h] = .ok f) : 0 < a := by
  have : ∃ f, WeightedMajority.fromSlices [a] [h] = .ok f := ⟨f, hf⟩
  rw [fromSlices_ok_iff] at this
  obtain ⟨p, hp, h0⟩ := this
  simp at hp
  rw [hp] at h0
  exact h0

theorem no_vote {ws : List ℝ} {f : WeightedMajority ℝ H} (hf : WeightedMajority.fromSlices ws ([] : List H) = .ok f) : False := by
  have : ∃ f, WeightedMajority.fromSlices ws ([] : List H) = .ok f := ⟨f, hf⟩
  rw [fromSlices_ok_iff] at this
  obtain ⟨p, hp, h0⟩ := this
  simp at hp

theorem signum_pos {e : ℝ} (h1 : 1 ≤ |e|) (h : 0 < AdaBoost.signum e) : 0 < e := by
  unfold AdaBoost.signum at h
  by_contra h0
  have : e < 0 := by
    rcases lt_or_eq_of_le (not_lt.1 h0) with h2 | h2
    · exact h2
    · rw [h2] at h1; norm_num at h1
  rw [if_neg (not_le.2 this)] at h
  linarith

/-- **C102** AdaBoost, exactly: a logged run returns a hypothesis if and only if the unlogged run does and the weak learner's first answer has a
positive edge. -/
theorem adaboost_log_returns_iff (S : Examples X ℝ) (s : AdaBoost H) (wl : WeakLearner ℝ H) (fuel : Nat)
    (hu : Undisturbed (loggerOf (AdaBoost.booster S) AdaBoost.currentHypothesis objective loss train test limit round) w) :
    (∃ r o qs, (loggerOf (AdaBoost.booster S) AdaBoost.currentHypothesis objective loss train test limit round).run w wl fuel s = some r ∧
        r.outcome = .ok o qs) ↔
      (∃ o qs, (AdaBoost.booster S).run wl fuel s = some (.ok (o, qs))) ∧ 0 < firstEdge S wl := by
  rw [log_returns_exactly _ w hu rfl wl s fuel]
  show (∃ o qs, (AdaBoost.booster S).run wl fuel s = some (.ok (o, qs))) ∧ (∀ n qs st, (AdaBoost.booster S).Reachable wl s (n + 1) qs st →
    ∃ f, (AdaBoost.booster S).postprocess st = .ok f) ↔ _
  refine and_congr_right fun ⟨o, qs, hrun⟩ => ⟨fun hpos => ?_, fun hpos n qs st hr => ?_⟩
  · rcases run_first hrun with ⟨qs', st, hr⟩ | ⟨s₁, out, k, hp, hb, hf, hpo⟩
    · have := hpos 0 _ _ hr
      rw [adaboost_postprocess_ok_iff S s wl _ _ _ hr] at this
      obtain ⟨rest, e, hl⟩ := (adaboost_first hr).2 0 rfl
      rw [e, List.length_eq_zero_iff.1 hl] at this
      simpa using this
    · have hr := Booster.Reachable.start (B := AdaBoost.booster S) (wl := wl) hp
      have hd := (adaboost_first hr).1 rfl
      have hi := AdaBoost.inv_of_reachable hr
      have hh : s₁.hypotheses = [] := List.length_eq_zero_iff.1 hi.hlen
      simp only [AdaBoost.booster, AdaBoost.boost, margins_def, innerProduct_eq_zip] at hb
      split at hb
      · injection hb with hb
        rw [← hb] at hpo
        have hpo : WeightedMajority.fromSlices s₁.weights s₁.hypotheses = .ok o := hpo
        rw [hh] at hpo
        exact (no_vote hpo).elim
      split at hb
      · rename_i h1
        injection hb with hb
        rw [← hb] at hpo
        have := sole_vote (f := o) hpo
        have := signum_pos h1 this
        rw [hd] at this
        exact this
      split at hb
      · cases hb
      · injection hb with hb; rw [← hb] at hf; cases hf
  · rw [adaboost_postprocess_ok_iff S s wl _ _ _ hr]
    obtain ⟨rest, e, -⟩ := (adaboost_first hr).2 n rfl
    rw [e]
    exact ⟨_, by simp, hpos⟩

/-- **C102** MadaBoost, exactly: as for AdaBoost. -/
theorem madaboost_log_returns_iff (S : Examples X ℝ) (s : MadaBoost H) (wl : WeakLearner ℝ H) (fuel : Nat)
    (hu : Undisturbed (loggerOf (MadaBoost.booster S) MadaBoost.currentHypothesis objective loss train test limit round) w) :
    (∃ r o qs, (loggerOf (MadaBoost.booster S) MadaBoost.currentHypothesis objective loss train test limit round).run w wl fuel s = some r ∧
        r.outcome = .ok o qs) ↔
      (∃ o qs, (MadaBoost.booster S).run wl fuel s = some (.ok (o, qs))) ∧ 0 < firstEdge S wl := by
  rw [log_returns_exactly _ w hu rfl wl s fuel]
  show (∃ o qs, (MadaBoost.booster S).run wl fuel s = some (.ok (o, qs))) ∧ (∀ n qs st, (MadaBoost.booster S).Reachable wl s (n + 1) qs st →
    ∃ f, (MadaBoost.booster S).postprocess st = .ok f) ↔ _
  refine and_congr_right fun ⟨o, qs, hrun⟩ => ⟨fun hpos => ?_, fun hpos n qs st hr => ?_⟩
  · rcases run_first hrun with ⟨qs', st, hr⟩ | ⟨s₁, out, k, hp, hb, hf, hpo⟩
    · have := hpos 0 _ _ hr
      rw [(madaboost_vote_weights S s wl _ _ _ hr).2] at this
      obtain ⟨rest, e, hl⟩ := (madaboost_first hr) 0 rfl
      rw [e, List.length_eq_zero_iff.1 hl] at this
      simpa using this
    · have hr := Booster.Reachable.start (B := MadaBoost.booster S) (wl := wl) hp
      have hi := MadaBoost.inv_of_reachable hr
      have hh : s₁.hypotheses = [] := List.length_eq_zero_iff.1 hi.hlen
      have hbe : s₁.betas = S.map fun e => 1 / (S.length : ℝ) + e.2 * (fun _ : X => (0 : ℝ)) e.1 := by
        rw [hi.betas, hh]
        apply List.map_congr_left
        intro e _
        simp [weightedConf]
      have hbc := MadaBoost.boost_cases (wl := wl) (it := 1) (F := fun _ : X => (0 : ℝ)) hi.ne hbe
      simp only [] at hbc
      have hc : MadaBoost.clip S (fun _ : X => (0 : ℝ)) = uniform S := by
        unfold MadaBoost.clip uniform
        rw [List.eq_replicate_iff]
        refine ⟨by simp, ?_⟩
        intro b hb
        obtain ⟨e, he, rfl⟩ := List.mem_map.1 hb
        simp only [mul_zero, add_zero, List.map_const', List.sum_replicate, nsmul_eq_mul]
        have hl : (0 : ℝ) < S.length := by
          have := List.length_pos_of_ne_nil hi.ne
          exact_mod_cast this
        have := exp_pos (min (1 / (S.length : ℝ)) 1)
        field_simp
      rw [hc] at hbc
      rw [show (MadaBoost.booster S).boost s₁ wl 1 = MadaBoost.boost S s₁ wl 1 from rfl, hbc] at hb
      split at hb
      · injection hb with hb
        rw [← hb] at hpo
        have hpo : WeightedMajority.fromSlices s₁.alphas s₁.hypotheses = .ok o := hpo
        rw [hh] at hpo
        exact (no_vote hpo).elim
      split at hb
      · rename_i h1
        injection hb with hb
        rw [← hb] at hpo
        exact signum_pos h1 (sole_vote (f := o) hpo)
      · injection hb with hb; rw [← hb] at hf; cases hf
  · rw [(madaboost_vote_weights S s wl _ _ _ hr).2]
    obtain ⟨rest, e, -⟩ := (madaboost_first hr) n rfl
    rw [e]
    exact ⟨_, by simp, hpos⟩

/-- **C102** AdaBoostV with a positive tolerance: logging changes nothing, whatever the weak learner answers. -/
theorem adaboostv_log_transparent (S : Examples X ℝ) (s : AdaBoostV H) (htol : 0 < s.tolerance) (wl : WeakLearner ℝ H)
    (hu : Undisturbed (loggerOf (AdaBoostV.booster S) AdaBoostV.currentHypothesis objective loss train test limit round) w) :
    Transparent (loggerOf (AdaBoostV.booster S) AdaBoostV.currentHypothesis objective loss train test limit round) w wl s := by
  refine log_transparent _ w hu rfl wl s fun n qs st hr => ?_
  have hr : (AdaBoostV.booster S).Reachable wl s (n + 1) qs st := hr
  have hi := AdaBoostV.inv_of_reachable hr
  obtain ⟨γ, v, e1, e2, e3⟩ := adaboostv_vote_positive_iff hr 0 (by omega)
  show ∃ f, WeightedMajority.fromSlices st.weights st.hypotheses = .ok f
  rw [fromSlices_ok_iff]
  have hkw : 0 < st.weights.length := by rw [hi.wlen]; omega
  have hkh : 0 < st.hypotheses.length := by rw [hi.hlen]; omega
  refine ⟨(st.weights[0], st.hypotheses[0]), List.mem_iff_getElem.2 ⟨0, by simp [hkw, hkh], by simp⟩, ?_⟩
  rw [List.getElem?_eq_getElem hkw, Option.some.injEq] at e2
  simp only [e2]
  apply e3.2
  obtain ⟨hlt, hg⟩ := List.getElem?_eq_some_iff.1 e1
  rw [List.take_one, List.head?_eq_getElem?, e1]
  simp only [Option.toList_some, List.foldr_cons, List.foldr_nil]
  have := min_le_left γ 1
  linarith

/-- **C102** SmoothBoost: logging changes nothing, whatever the weak learner answers. -/
theorem smoothboost_log_transparent (S : Examples X ℝ) (s : SmoothBoost H) (wl : WeakLearner ℝ H)
    (hu : Undisturbed (loggerOf (SmoothBoost.booster S) SmoothBoost.currentHypothesis objective loss train test limit round) w) :
    Transparent (loggerOf (SmoothBoost.booster S) SmoothBoost.currentHypothesis objective loss train test limit round) w wl s := by
  refine log_transparent _ w hu rfl wl s fun n qs st hr => ?_
  have hr : (SmoothBoost.booster S).Reachable wl s (n + 1) qs st := hr
  have hi := SmoothBoost.inv_of_reachable hr
  have hle := hi.le
  rw [hi.max] at hle
  refine ⟨_, smooth_postprocess st (by rw [hi.term]; omega) (by rw [hi.nSample]; exact List.length_pos_of_ne_nil hi.ne) ?_⟩
  intro h0
  have := hi.hlen
  rw [h0] at this
  simp at this

end margin

/-- **C102** GraphSepBoost: logging changes nothing, whatever the weak learner answers. -/
theorem graphsep_log_transparent {K : Type*} [Field K] [LinearOrder K] [IsStrictOrderedRing K] [FloorRing K] [Classifier H X K]
    {objective loss : T → NaiveAggregation H → Except Panic K} {train test : T} {limit round : Nat} {w : World} (S : Examples X K)
    (s : GraphSepBoost H) (wl : WeakLearner K H)
    (hu : Undisturbed (loggerOf (GraphSepBoost.booster S) (GraphSepBoost.currentHypothesis S) objective loss train test limit round) w) :
    Transparent (loggerOf (GraphSepBoost.booster S) (GraphSepBoost.currentHypothesis S) objective loss train test limit round) w wl s :=
  log_transparent _ w hu rfl wl s fun _ _ _ _ => ⟨_, rfl⟩

section solver

variable [Classifier H X ℝ] {objective loss : T → WeightedMajority ℝ H → Except Panic ℝ} {train test : T} {limit round : Nat} {w : World}

/-- **C102** LPBoost with a correct solver: logging changes nothing, whatever the weak learner answers. -/
theorem lpboost_log_transparent (S : Examples X ℝ) (s : LPBoost ℝ H) (hn : s.nSample = S.length) (solver : Solver ℝ) (hsolver : solver.Correct)
    (wl : WeakLearner ℝ H)
    (hu : Undisturbed (loggerOf (LPBoost.booster solver S) LPBoost.currentHypothesis objective loss train test limit round) w) :
    Transparent (loggerOf (LPBoost.booster solver S) LPBoost.currentHypothesis objective loss train test limit round) w wl s := by
  refine log_transparent _ w hu rfl wl s fun n qs st hr => ?_
  have hr : (LPBoost.booster solver S).Reachable wl s (n + 1) qs st := hr
  have hi := lp_inv hn hsolver hr
  obtain ⟨m, hm, -, hd⟩ := hi.model
  obtain ⟨-, γ, hg, -⟩ := hd (by omega)
  obtain ⟨f, hf, -⟩ := fromSlices_prob (X := X) m.weights _ hg.wlen hg.wprob
  refine ⟨f, ?_⟩
  show LPBoost.postprocess st = .ok f
  simp only [LPBoost.postprocess, hm]
  exact hf

/-- **C102** ERLPBoost with a correct solver and confidences in `[-1, 1]`: logging changes nothing. -/
theorem erlpboost_log_transparent (S : Examples X ℝ) (s : ERLPBoost H) (hn : s.nSample = S.length) (solver : Solver ℝ) (hsolver : solver.Correct)
    (hrep : solver.Reports) (fuel : Nat) (hfuel : ERLP.enough S.length ≤ fuel) (wl : WeakLearner ℝ H)
    (hb : ∀ k d, ∀ e ∈ S, |e.2 * conf (wl k d) e.1| ≤ (1 : ℝ))
    (hu : Undisturbed (loggerOf (ERLPBoost.booster solver fuel S) ERLPBoost.currentHypothesis objective loss train test limit round) w) :
    Transparent (loggerOf (ERLPBoost.booster solver fuel S) ERLPBoost.currentHypothesis objective loss train test limit round) w wl s := by
  refine log_transparent _ w hu rfl wl s fun n qs st hr => ?_
  have hr : (ERLPBoost.booster solver fuel S).Reachable wl s (n + 1) qs st := hr
  obtain ⟨m, hm, hm1, hm2⟩ := (er_weights hn hsolver hrep hfuel hb hr).2 (by omega)
  obtain ⟨f, hf, -⟩ := fromSlices_prob (X := X) m.weights _ hm1 hm2
  refine ⟨f, ?_⟩
  show ERLPBoost.postprocess st = .ok f
  simp only [ERLPBoost.postprocess, hm]
  exact hf

theorem soft_current {S : Examples X ℝ} {s : SoftBoost H} {solver : Solver ℝ} (hsolver : solver.Correct) {fuel : Nat} {wl : WeakLearner ℝ H} {n : Nat}
    {qs : List (List ℝ)} {st : SoftBoost H} (hr : (SoftBoost.booster solver fuel S).Reachable wl s (n + 1) qs st) :
    ∃ f, SoftBoost.postprocess solver st = .ok f := by
  have hi := soft_inv hr
  obtain ⟨m, hm, hh⟩ := hi.model
  refine soft_post hsolver hh (checkBinary_ne_nil hi.bin) ?_ hi.nu1 hi.nu2 st hm rfl
  intro h0
  have := hi.hlen
  rw [h0] at this
  simp at this

/-- **C102** SoftBoost with a correct solver: logging changes nothing, whatever the weak learner answers. -/
theorem softboost_log_transparent (S : Examples X ℝ) (s : SoftBoost H) (solver : Solver ℝ) (hsolver : solver.Correct) (fuel : Nat)
    (wl : WeakLearner ℝ H)
    (hu : Undisturbed (loggerOf (SoftBoost.booster solver fuel S) (SoftBoost.currentHypothesis solver) objective loss train test limit round) w) :
    Transparent (loggerOf (SoftBoost.booster solver fuel S) (SoftBoost.currentHypothesis solver) objective loss train test limit round) w wl s :=
  log_transparent _ w hu rfl wl s fun _ _ _ hr => soft_current (fuel := fuel) (S := S) hsolver hr

theorem total_reachable {S : Examples X ℝ} {s : TotalBoost H} {solver : Solver ℝ} {fuel : Nat} {wl : WeakLearner ℝ H} {n : Nat}
    {qs : List (List ℝ)} {st : TotalBoost H} (hr : (TotalBoost.booster solver fuel S).Reachable wl s n qs st) :
    (SoftBoost.booster solver fuel S).Reachable wl s.softboost n qs st.softboost := by
  induction hr with
  | start hp =>
    simp only [TotalBoost.booster] at hp
    cases e : (SoftBoost.booster solver fuel S).preprocess s.softboost wl with
    | error p => rw [e] at hp; cases hp
    | ok t => rw [e] at hp; injection hp with hp; rw [← hp]; exact .start e
  | @step n qs s₁ out hr hb hf ih =>
    simp only [TotalBoost.booster] at hb
    cases e : (SoftBoost.booster solver fuel S).boost s₁.softboost wl (n + 1) with
    | error p => rw [e] at hb; cases hb
    | ok t => rw [e] at hb; injection hb with hb; subst hb; exact ih.step e hf

/-- **C102** TotalBoost with a correct solver: logging changes nothing, whatever the weak learner answers. -/
theorem totalboost_log_transparent (S : Examples X ℝ) (s : TotalBoost H) (solver : Solver ℝ) (hsolver : solver.Correct) (fuel : Nat)
    (wl : WeakLearner ℝ H)
    (hu : Undisturbed (loggerOf (TotalBoost.booster solver fuel S) (TotalBoost.currentHypothesis solver) objective loss train test limit round) w) :
    Transparent (loggerOf (TotalBoost.booster solver fuel S) (TotalBoost.currentHypothesis solver) objective loss train test limit round) w wl s :=
  log_transparent _ w hu rfl wl s fun _ _ _ hr => soft_current (fuel := fuel) (S := S) hsolver (total_reachable hr)

/-- **C102** CERLPBoost with any Frank-Wolfe strategy (parameters in range, confidences in `[-1, 1]`): logging changes nothing. -/
theorem cerlp_log_transparent [BEq H] (S : Examples X ℝ) (s : CERLPBoost H) (wl : WeakLearner ℝ H) (ok : CerlpAny S s wl)
    (hu : Undisturbed (loggerOf (CERLPBoost.booster S) CERLPBoost.currentHypothesis objective loss train test limit round) w) :
    Transparent (loggerOf (CERLPBoost.booster S) CERLPBoost.currentHypothesis objective loss train test limit round) w wl s := by
  refine log_transparent _ w hu rfl wl s fun n qs st hr => ?_
  have hi := cerlp_any_inv ok (show (CERLPBoost.booster S).Reachable wl s (n + 1) qs st from hr)
  show ∃ f, WeightedMajority.fromSlices st.weights st.hypotheses = .ok f
  rw [fromSlices_ok_iff]
  obtain ⟨x, hx, hx0⟩ := hi.pos (by omega)
  obtain ⟨i, hi', rfl⟩ := List.getElem_of_mem hx
  have hl : i < st.hypotheses.length := by rw [← hi.len]; exact hi'
  exact ⟨(st.weights[i], st.hypotheses[i]), List.mem_iff_getElem.2 ⟨i, by simp [hi', hl], by simp⟩, hx0⟩

/-- **C102** MLPBoost with a correct solver (parameters in range; with the blended pairwise strategy, a weak learner that does not repeat itself):
logging changes nothing. -/
theorem mlp_log_transparent [BEq H] (S : Examples X ℝ) (s : MLPBoost H) (wl : WeakLearner ℝ H) (ok : MlpAny S s wl) (solver : Solver ℝ)
    (hsolver : solver.Correct) (noise : Nat → Nat → ℝ)
    (hu : Undisturbed (loggerOf (MLPBoost.booster solver noise S) MLPBoost.currentHypothesis objective loss train test limit round) w) :
    Transparent (loggerOf (MLPBoost.booster solver noise S) MLPBoost.currentHypothesis objective loss train test limit round) w wl s := by
  refine log_transparent _ w hu rfl wl s fun n qs st hr => ?_
  obtain ⟨hi, -, -⟩ := mlp_any_inv ok hsolver (show (MLPBoost.booster solver noise S).Reachable wl s (n + 1) qs st from hr)
  obtain ⟨f, hf, -⟩ := fromSlices_prob (X := X) st.weights st.hypotheses hi.len (hi.prob (by omega))
  exact ⟨f, hf⟩

end solver

/-- The conditions are met: a clock that shows no time, a file that can be written, an objective that is always zero. -/
example : Undisturbed (loggerOf (AdaBoostV.booster exSample) (AdaBoostV.currentHypothesis (H := Fn Nat ℝ)) (fun _ _ => .ok 0) (fun _ _ => .ok 0) () () 1000 10)
    ⟨fun _ => 0, true, true, fun _ => true⟩ := by
  refine ⟨by decide, rfl, rfl, fun _ => rfl, fun k => ?_, fun _ _ => ⟨_, rfl⟩, fun _ _ => ⟨_, rfl⟩⟩
  have : ∀ k, timeUpTo (fun _ => 0) k = 0 := by
    intro k
    induction k with
    | zero => rfl
    | succ k ih => simp [timeUpTo, ih]
  simp [this, loggerOf]

end Miniboosts.Props
