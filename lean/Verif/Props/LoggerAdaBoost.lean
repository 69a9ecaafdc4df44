import Verif.Props.Logger
import Verif.Props.AdaBoost

/-! # Logging AdaBoost: C51 -/

namespace Miniboosts.Props

open Miniboosts Spec Real AdaBoost

variable {X H T : Type*}

/-- A logger for AdaBoost: `impl Research for AdaBoost` builds the intermediate hypothesis exactly as the final one. -/
noncomputable def adaLogger [Classifier H X ℝ] (S : Examples X ℝ) (objective loss : T → WeightedMajority ℝ H → Except Panic ℝ) (train test : T) (limit round : Nat) :
    Logger (AdaBoost H) ℝ H (WeightedMajority ℝ H) T :=
  { booster := AdaBoost.booster S, current := AdaBoost.postprocess, objective := objective, loss := loss, train := train, test := test, timeLimit := limit, round := round }

theorem calls_reachable_from {σ K O : Type*} {B : Booster σ K H O} {wl : WeakLearner K H} {s : σ} : ∀ (outs : List (BoostOut σ K)) (n : Nat) (qs : List (List K)) (st : σ),
    B.Reachable wl s n qs st → Calls B wl st (n + 1) outs → ∀ out ∈ outs, ∃ m qs' st', B.Reachable wl s m qs' st' ∧ B.boost st' wl (m + 1) = .ok out := by
  intro outs
  induction outs with
  | nil => intro n qs st _ _ out h; cases h
  | cons o outs ih =>
    intro n qs st hr hc out ho
    cases hc with
    | cons call goesOn rest =>
      rcases List.mem_cons.mp ho with rfl | ho
      · exact ⟨n, qs, st, hr, call⟩
      · exact ih (n + 1) _ _ (hr.step call (goesOn (List.ne_nil_of_mem ho))) rest out ho

/-- Every result in a chain of calls comes from a state reached by the run. -/
theorem calls_reachable {σ K O : Type*} {B : Booster σ K H O} {wl : WeakLearner K H} {s s₀ : σ} (hp : B.preprocess s wl = .ok s₀) {outs : List (BoostOut σ K)}
    (hc : Calls B wl s₀ 1 outs) : ∀ out ∈ outs, ∃ m qs st, B.Reachable wl s m qs st ∧ B.boost st wl (m + 1) = .ok out :=
  calls_reachable_from outs 0 [] s₀ (.start hp) hc

variable [Classifier H X ℝ]

/-- C51 for AdaBoost: with a weak learner whose edges are positive, and an objective and losses that do not panic, the logged run ends as `Booster::run` does. -/
theorem adaboost_log_same (S : Examples X ℝ) (s : AdaBoost H) (wl : WeakLearner ℝ H) (objective loss : T → WeightedMajority ℝ H → Except Panic ℝ) (train test : T)
    (limit round : Nat) (w : World) (fuel : Nat) (hr : round ≠ 0) (hc : w.createOk = true) (hh : w.headerOk = true) (hw : ∀ k, w.writeOk k = true)
    (ht : ∀ k, timeUpTo w.elapsed k ≤ limit) (hobj : ∀ t f, ∃ v, objective t f = .ok v) (hloss : ∀ t f, ∃ v, loss t f = .ok v)
    (hlim : 1 ≤ adaboostLimit S s)
    (hwl : ∀ k d, d.length = S.length → IsPosProb d → 0 < Spec.edge S d (conf (wl k d))) :
    ((adaLogger S objective loss train test limit round).run w wl fuel s).map LogRun.outcome = ((AdaBoost.booster S).run wl fuel s).map asOutcome := by
  refine log_same_result_partial (adaLogger S objective loss train test limit round) w wl fuel s hr hc hh hw ht ?_
  intro s₀ outs hp hcalls out hout
  have hp : (AdaBoost.booster S).preprocess s wl = .ok s₀ := hp
  have hcalls : Calls (AdaBoost.booster S) wl s₀ 1 outs := hcalls
  obtain ⟨m, qs, st, hreach, hb⟩ := calls_reachable hp hcalls out hout
  have hpost : ∃ f, AdaBoost.postprocess out.state = .ok f := by
    have hi := inv_of_reachable hreach
    have hdist : st.dist.length = S.length ∧ IsPosProb st.dist := by
      have hd := hi.dist
      rw [hd]
      exact ⟨by simp [Spec.expWeights], expWeights_posProb S hi.ne _⟩
    have hpos : ∀ k qs st, (AdaBoost.booster S).Reachable wl s k qs st → ∀ γ ∈ Spec.edges S conf qs st.hypotheses, 0 < γ := by
      intro k qs st hreach
      induction hreach with
      | start hp =>
        have hi := inv_of_reachable (Booster.Reachable.start (B := AdaBoost.booster S) (wl := wl) hp)
        simp [Spec.edges]
      | @step n qs s₁ out hr hb hf ih =>
        have hi := inv_of_reachable hr
        obtain ⟨h1, h2, h3, h4⟩ := boost_cont hi.ne hi.dist hb hf
        rw [h3, h4]
        simp only [edges_append S qs s₁.hypotheses (by rw [hi.qlen, hi.hlen])]
        intro γ hγ
        rcases List.mem_append.1 hγ with h | h
        · exact ih γ h
        · simp only [List.mem_singleton] at h
          rw [h]
          have hd := hi.dist
          apply hwl
          · rw [hd]; simp [Spec.expWeights]
          · rw [hd]; exact expWeights_posProb S hi.ne _
    by_cases hmax : st.maxIter < m + 1
    · have hst : out.state = st := by
        simp only [AdaBoost.booster, AdaBoost.boost] at hb
        rw [if_pos hmax] at hb
        simp only [Except.ok.injEq] at hb
        rw [← hb]
      rw [hst]
      apply (adaboost_postprocess_ok_iff S s wl m qs st hreach).2
      have hm : st.maxIter = adaboostLimit S s := hi.max
      have hlen : (Spec.edges S conf qs st.hypotheses).length = m := by simp [Spec.edges, hi.qlen, hi.hlen]
      obtain ⟨γ, hγ⟩ := List.exists_mem_of_ne_nil (Spec.edges S conf qs st.hypotheses) (by intro h; rw [h] at hlen; simp at hlen; omega)
      exact ⟨γ, hγ, hpos _ _ _ hreach γ hγ⟩
    · by_cases hedge : 1 ≤ Spec.edge S st.dist (conf (wl (m + 1) st.dist))
      · obtain ⟨out', h1, _, h3⟩ := adaboost_perfect_hypothesis S s wl m qs st hreach (by omega) hedge
        rw [hb] at h1
        simp only [Except.ok.injEq] at h1
        subst h1
        exact ⟨_, h3⟩
      · have he := hwl (m + 1) st.dist hdist.1 hdist.2
        have hcont : out.flow = .cont := by
          simp only [AdaBoost.booster, AdaBoost.boost, margins_def, innerProduct_eq_zip] at hb
          rw [if_neg hmax, if_neg (by
            intro h
            apply hedge
            rw [abs_of_pos he] at h; exact h)] at hb
          split at hb
          · cases hb
          · simp only [Except.ok.injEq] at hb; rw [← hb]
        have hnext := hreach.step hb hcont
        apply (adaboost_postprocess_ok_iff S s wl (m + 1) _ out.state hnext).2
        have hi' := inv_of_reachable hnext
        have hlen : (Spec.edges S conf (qs ++ out.queries) out.state.hypotheses).length = m + 1 := by simp [Spec.edges, hi'.qlen, hi'.hlen]
        obtain ⟨γ, hγ⟩ := List.exists_mem_of_ne_nil (Spec.edges S conf (qs ++ out.queries) out.state.hypotheses) (by intro h; rw [h] at hlen; simp at hlen)
        exact ⟨γ, hγ, hpos _ _ _ hnext γ hγ⟩
  obtain ⟨f, hf⟩ := hpost
  obtain ⟨a, ha⟩ := hobj train f
  obtain ⟨b, hb⟩ := hloss train f
  obtain ⟨c, hc⟩ := hloss test f
  exact ⟨⟨a, b, c, 0⟩, f, hf, ha, hb, hc⟩

/-- Logging changes the result: if the first hypothesis has an edge in `(-1, 0]`, a logged run of AdaBoost panics in its first round, with an empty file, whatever the
later hypotheses are, because the intermediate hypothesis has no positive weight. -/
theorem adaboost_log_panics (S : Examples X ℝ) (s s₀ : AdaBoost H) (wl : WeakLearner ℝ H) (objective loss : T → WeightedMajority ℝ H → Except Panic ℝ) (train test : T)
    (limit round : Nat) (w : World) (fuel : Nat) (hc : w.createOk = true) (hh : w.headerOk = true)
    (hp : (AdaBoost.booster S).preprocess s wl = .ok s₀) (hlim : 1 ≤ adaboostLimit S s)
    (h1 : -1 < Spec.edge S s₀.dist (conf (wl 1 s₀.dist))) (h2 : Spec.edge S s₀.dist (conf (wl 1 s₀.dist)) ≤ 0) :
    ∃ printed, (adaLogger S objective loss train test limit round).run w wl (fuel + 1) s = some ⟨some [], printed, .panic .assertion⟩ := by
  have hreach : (AdaBoost.booster S).Reachable wl s 0 [] s₀ := .start hp
  have hi := inv_of_reachable hreach
  have hm : s₀.maxIter = adaboostLimit S s := hi.max
  have habs : ¬ 1 ≤ |Spec.edge S s₀.dist (conf (wl 1 s₀.dist))| := by rw [abs_of_nonpos h2]; linarith
  have hbst : ∃ out, (AdaBoost.booster S).boost s₀ wl 1 = .ok out ∧ out.flow = .cont := by
    simp only [booster, boost, updateParams, margins_def, innerProduct_eq_zip]
    rw [if_neg (by omega), if_neg habs]
    have hrw := reweight_expWeights S hi.ne (weightedConf s₀.weights s₀.hypotheses) (conf (wl 1 s₀.dist)) (hypWeight (Spec.edge S s₀.dist (conf (wl 1 s₀.dist))))
    rw [← hi.dist] at hrw
    rw [hrw]
    exact ⟨_, rfl, rfl⟩
  obtain ⟨out, hb, hcont⟩ := hbst
  have hpost : AdaBoost.postprocess out.state = .error .assertion := by
    have hnext := hreach.step hb hcont
    have hno := (adaboost_postprocess_ok_iff S s wl 1 _ out.state hnext).not
    have : ¬ ∃ γ ∈ Spec.edges S conf ([] ++ out.queries) out.state.hypotheses, 0 < γ := by
      obtain ⟨q1, q2, q3, q4⟩ := boost_cont hi.ne hi.dist hb hcont
      have hemp : s₀.hypotheses = [] := by
        have := hi.hlen; exact List.length_eq_zero_iff.mp this
      rw [q3, q4, hemp]
      simp [Spec.edges]
      exact h2
    have hne := hno.mpr this
    cases hpp : AdaBoost.postprocess out.state with
    | ok f => exact absurd ⟨f, hpp⟩ hne
    | error e =>
      unfold AdaBoost.postprocess WeightedMajority.fromSlices normalize at hpp
      simp only at hpp
      split at hpp
      · rename_i hz
        split at hz
        · cases hz; cases hpp; rfl
        · cases hz
      · cases hpp
  refine ⟨Printed.stats :: (if round ≠ usizeMax then [Printed.header] else []) ++ [], ?_⟩
  unfold Logger.run
  rw [if_neg (by rw [hc]; simp), if_neg (by rw [hh]; simp)]
  rw [show (adaLogger S objective loss train test limit round).booster.preprocess s wl = .ok s₀ from hp]
  simp only
  unfold Logger.loop
  rw [show (adaLogger S objective loss train test limit round).booster.boost s₀ wl 1 = .ok out from hb]
  have hev : (adaLogger S objective loss train test limit round).eval out.state = .error .assertion := by
    unfold Logger.eval
    rw [show (adaLogger S objective loss train test limit round).current out.state = .error .assertion from hpost]
  simp only [hev]
  rfl

/-- A learner that is half-confidently wrong in its first round and right afterwards. -/
noncomputable def exLate : WeakLearner ℝ (Fn Nat ℝ) :=
  fun k _ => if k = 1 then ⟨fun x => if x = 0 then -1 / 2 else 1 / 2⟩ else ⟨fun x => if x = 0 then 1 else -1⟩

/-- C51, negation: there is a run of AdaBoost that returns a perfect hypothesis and whose logged version panics. -/
theorem log_changes_result :
    (∃ f qs, (AdaBoost.booster exSample).run exLate 3 exBooster = some (.ok (f, qs))) ∧
    ∀ (objective loss : Unit → WeightedMajority ℝ (Fn Nat ℝ) → Except Panic ℝ) (limit round : Nat) (w : World), w.createOk = true → w.headerOk = true →
      ∃ printed, (adaLogger exSample objective loss () () limit round).run w exLate 3 exBooster = some ⟨some [], printed, .panic .assertion⟩ := by
  have hlim : adaboostLimit exSample exBooster = 6 := rfl
  obtain ⟨s₀, hp⟩ : ∃ s₀, (AdaBoost.booster exSample).preprocess exBooster exLate = .ok s₀ := by
    simp only [booster, preprocess, exSample_valid]; exact ⟨_, rfl⟩
  have hreach : (AdaBoost.booster exSample).Reachable exLate exBooster 0 [] s₀ := .start hp
  have hi := inv_of_reachable hreach
  have hm : s₀.maxIter = 6 := hi.max
  have prob : ∀ n qs st, (AdaBoost.booster exSample).Reachable exLate exBooster n qs st → ∃ a b, st.dist = [a, b] ∧ a + b = 1 := by
    intro n qs st hr
    have hi := inv_of_reachable hr
    have hd := hi.dist
    have h2 := (expWeights_posProb exSample hi.ne (weightedConf st.weights st.hypotheses)).2
    rw [← hd] at h2
    have hl : st.dist.length = 2 := by rw [hd]; simp [Spec.expWeights, exSample]
    match hdd : st.dist, hl with
    | [a, b], _ => rw [hdd] at h2; exact ⟨a, b, rfl, by simpa using h2⟩
  have he1 : Spec.edge exSample s₀.dist (conf (exLate 1 s₀.dist)) = -1 / 2 := by
    obtain ⟨a, b, hd, hab⟩ := prob _ _ _ hreach
    rw [hd]
    simp [Spec.edge, exSample, exLate, conf]
    linarith
  constructor
  · have habs : ¬ 1 ≤ |Spec.edge exSample s₀.dist (conf (exLate 1 s₀.dist))| := by rw [he1]; norm_num [abs_of_neg]
    obtain ⟨out, hb, hcont⟩ : ∃ out, (AdaBoost.booster exSample).boost s₀ exLate 1 = .ok out ∧ out.flow = .cont := by
      simp only [booster, boost, updateParams, margins_def, innerProduct_eq_zip]
      rw [if_neg (by omega), if_neg habs]
      have hrw := reweight_expWeights exSample hi.ne (weightedConf s₀.weights s₀.hypotheses) (conf (exLate 1 s₀.dist)) (hypWeight (Spec.edge exSample s₀.dist (conf (exLate 1 s₀.dist))))
      rw [← hi.dist] at hrw
      rw [hrw]
      exact ⟨_, rfl, rfl⟩
    have hr1 := hreach.step hb hcont
    have hm1 : out.state.maxIter = 6 := (inv_of_reachable hr1).max
    have he2 : 1 ≤ Spec.edge exSample out.state.dist (conf (exLate (0 + 1 + 1) out.state.dist)) := by
      obtain ⟨a, b, hd, hab⟩ := prob _ _ _ hr1
      rw [hd]
      simp [Spec.edge, exSample, exLate, conf]
      linarith
    obtain ⟨out2, hb2, hf2, hp2⟩ := adaboost_perfect_hypothesis exSample exBooster exLate (0 + 1) _ _ hr1 (by omega) he2
    refine ⟨⟨[1], [exLate 2 out.state.dist]⟩, out.queries ++ out2.queries, ?_⟩
    unfold Booster.run
    rw [hp]
    simp only [Booster.loop, hb, hcont, Nat.reduceAdd] at hb2 ⊢
    rw [hb2]
    simp only [hf2, Option.map_some, Except.map]
    rw [hp2]
  · intro objective loss limit round w hc hh
    exact adaboost_log_panics exSample exBooster s₀ exLate objective loss () () limit round w 2 hc hh hp (by omega) (by rw [he1]; norm_num) (by rw [he1]; norm_num)

/-- `adaboost_log_same` applies: the half-confident learner always has edge 1/2. -/
example (w : World) (hc : w.createOk = true) (hh : w.headerOk = true) (hw : ∀ k, w.writeOk k = true) (ht : ∀ k, timeUpTo w.elapsed k ≤ u128Max) :
    ((adaLogger exSample (fun (_ : Unit) _ => .ok 0) (fun _ _ => .ok 0) () () u128Max 100).run w exLearner 7 exBooster).map LogRun.outcome
      = ((AdaBoost.booster exSample).run exLearner 7 exBooster).map asOutcome :=
  adaboost_log_same exSample exBooster exLearner _ _ () () _ _ w 7 (by decide) hc hh hw ht (fun _ _ => ⟨_, rfl⟩) (fun _ _ => ⟨_, rfl⟩)
    (by have : adaboostLimit exSample exBooster = 6 := rfl
        omega) (fun k d hl hd => by rw [exLearner_edge k d hl hd]; norm_num)

end Miniboosts.Props
