import Verif.Props.Config
import Verif.Props.TreePanic

/-! # C84: linearly separable samples and the round limit of AdaBoost -/

namespace Miniboosts.Props

open Miniboosts Real

variable {H X : Type*}

/-- C84: a learner that always returns a hypothesis of largest edge from a class `C`; if some weighted vote over `C` separates the
sample with margin at least `2τ`, where `τ ∈ (0, 1/2]` is the tolerance given to a fresh AdaBoost, the returned hypothesis makes no
training error. -/
theorem adaboost_separable_zero_error [Classifier H X ℝ] (S : Examples X ℝ) (hvalid : checkBinary S = .ok ()) (hpm : Spec.PmLabels S)
    (C : Set H) (hC : ∀ h ∈ C, ∀ e ∈ S, |conf h e.1| ≤ (1 : ℝ)) (wl : WeakLearner ℝ H) (hmem : ∀ k d, wl k d ∈ C)
    (hmax : ∀ k d, d.length = S.length → Spec.IsPosProb d → ∀ h ∈ C, Spec.edge S d (conf h) ≤ Spec.edge S d (conf (wl k d)))
    {τ : ℝ} (hτ : 0 < τ) (hτ1 : τ ≤ 1 / 2) (v : List (ℝ × H)) (hv : ∀ p ∈ v, 0 ≤ p.1 ∧ p.2 ∈ C) (hv1 : (v.map Prod.fst).sum = 1)
    (hmargin : ∀ e ∈ S, 2 * τ ≤ e.2 * Spec.vote conf v e.1) :
    ∃ n f qs, (AdaBoost.booster S).run wl n ((AdaBoost.init S).setTolerance τ) = some (.ok (f, qs)) ∧
      Spec.errors S (predict (K := ℝ) f) = 0 := by
  obtain ⟨s, f, qs, h1, h2, h3⟩ := adaboost_configured_zero_error S [.tolerance τ] (by simp) (τ := τ) (by rfl) hτ hτ1 wl hvalid hpm
    (fun k d => hC _ (hmem k d)) (fun k d hd hp => by
      have hp' := isProb_of_pos hp
      have e1 := LP.le_edge_of_margins S d hd hp' (Spec.vote conf v) (2 * τ) hmargin
      have h2 := LP.pair_edge S (v.map Prod.snd) d (v.map Prod.fst) (by simp)
      rw [zip_map_fst_snd] at h2
      rw [show Spec.edge S d (Spec.vote conf v) = _ from h2] at e1
      refine e1.trans (LP.weighted_le v (fun p hp => (hv p hp).1) hv1 (fun h => Spec.edge S d (conf h)) _ ?_)
      intro p hp''
      exact hmax k d hd hp p.2 (hv p hp'').2)
  simp only [configure, AdaBoost.call, Except.ok.injEq] at h1
  exact ⟨_, f, qs, h1 ▸ h2, h3⟩

/-! ## The documented claim does not hold without the margin condition -/

/-- Four examples, one positive. -/
def sepSample : Examples Nat ℝ := [(0, 1), (1, -1), (2, -1), (3, -1)]

/-- Right on the first example, wrong by `a` on the other three. -/
noncomputable def sepBad (a : ℝ) : Fn Nat ℝ := ⟨fun x => if x = 0 then 1 else a⟩

/-- Right everywhere, with confidence `ε`. -/
noncomputable def sepGood (ε : ℝ) : Fn Nat ℝ := ⟨fun x => if x = 0 then ε else -ε⟩

open Classical in
/-- The learner that returns the hypothesis of larger edge. -/
noncomputable def sepLearner (a ε : ℝ) : WeakLearner ℝ (Fn Nat ℝ) := fun _ d =>
  if Spec.edge sepSample d (conf (sepGood ε)) ≤ Spec.edge sepSample d (conf (sepBad a)) then sepBad a else sepGood ε

theorem sepSample_valid : checkBinary sepSample = .ok () := by
  have h1 : asI32 (1 : ℝ) = 1 := by simp [asI32, trunc]
  have hc : ⌈(-1 : ℝ)⌉ = -1 := by rw [show (-1 : ℝ) = ((-1 : Int) : ℝ) by norm_num, Int.ceil_intCast]
  have h2 : asI32 (-1 : ℝ) = -1 := by
    have : ¬ (0 : ℝ) ≤ -1 := by norm_num
    simp [asI32, trunc, this, hc]
  have t1 : ((trunc (1 : ℝ) : Int) : ℝ) = 1 := by simp [trunc]
  have t2 : ((trunc (-1 : ℝ) : Int) : ℝ) = -1 := by
    have : ¬ (0 : ℝ) ≤ -1 := by norm_num
    simp [trunc, this, hc]
  have hd : List.dedup [(1 : Int), -1, -1, -1] = [1, -1] := by decide
  simp only [checkBinary, isValidBinary, sepSample, List.map_cons, List.map_nil, h1, h2, List.any_cons, List.any_nil, t1, t2, hd]
  simp

theorem sepSample_pm : Spec.PmLabels sepSample := by
  intro e he
  simp only [sepSample, List.mem_cons, List.not_mem_nil, or_false] at he
  rcases he with rfl | rfl | rfl | rfl <;> simp

/-- The edge of the bad hypothesis after it has received the total vote `W`. -/
theorem sep_bad_edge (a W : ℝ) (F : Nat → ℝ) (hF : ∀ x, F x = W * conf (sepBad a) x) :
    Spec.edge sepSample (Spec.expWeights sepSample F) (conf (sepBad a)) =
      (exp (-W) - 3 * a * exp (a * W)) / (exp (-W) + 3 * exp (a * W)) := by
  have h0 : F 0 = W := by rw [hF]; simp [sepBad, conf]
  have h1 : F 1 = a * W := by rw [hF]; simp [sepBad, conf]; ring
  have h2 : F 2 = a * W := by rw [hF]; simp [sepBad, conf]; ring
  have h3 : F 3 = a * W := by rw [hF]; simp [sepBad, conf]; ring
  simp only [Spec.edge, Spec.expWeights, sepSample, List.map_cons, List.map_nil, List.zip_cons_cons, List.zip_nil_right, List.sum_cons,
    List.sum_nil, h0, h1, h2, h3]
  simp [sepBad, conf]
  ring

theorem sep_good_edge (ε : ℝ) {d : List ℝ} (hd : d.length = sepSample.length) (hp : d.sum = 1) :
    Spec.edge sepSample d (conf (sepGood ε)) = ε := by
  match d, hd with
  | [p, q, r, t], _ =>
    simp [Spec.edge, sepSample, sepGood, conf]
    simp at hp
    linear_combination ε * hp

theorem hypWeight_le_third {γ : ℝ} (h0 : 0 < γ) (h1 : γ ≤ 1 / 4) : 0 < AdaBoost.hypWeight γ ∧ AdaBoost.hypWeight γ ≤ 1 / 2 := by
  refine ⟨AdaBoost.hypWeight_pos h0 (by linarith), ?_⟩
  unfold AdaBoost.hypWeight
  have h2 : 0 < 1 - γ := by linarith
  have h3 : (1 + γ) / (1 - γ) ≤ 2 := by rw [div_le_iff₀ h2]; linarith
  have h4 := Real.log_le_sub_one_of_pos (show 0 < (1 + γ) / (1 - γ) by positivity)
  linarith

theorem sep_bounds {T : Nat} {W : ℝ} (h0 : 0 ≤ W) (hT : W ≤ T / 2) :
    exp (-(T : ℝ)) / 8 ≤ (exp (-W) - 3 * (exp (-(T : ℝ)) / 6) * exp (exp (-(T : ℝ)) / 6 * W)) / (exp (-W) + 3 * exp (exp (-(T : ℝ)) / 6 * W)) ∧
    (exp (-W) - 3 * (exp (-(T : ℝ)) / 6) * exp (exp (-(T : ℝ)) / 6 * W)) / (exp (-W) + 3 * exp (exp (-(T : ℝ)) / 6 * W)) ≤ 1 / 4 := by
  set a := exp (-(T : ℝ)) / 6 with ha
  have hT0 : (0 : ℝ) ≤ T := Nat.cast_nonneg _
  have hexpT : exp (-(T : ℝ)) ≤ 1 := by rw [exp_le_one_iff]; linarith
  have ha0 : 0 < a := by positivity
  have ha1 : a ≤ 1 := by rw [ha]; linarith
  set p := exp (-W) with hp
  set q := exp (a * W) with hq
  have hp0 : 0 < p := exp_pos _
  have hp1 : p ≤ 1 := by rw [hp, exp_le_one_iff]; linarith
  have hq1 : 1 ≤ q := by rw [hq, one_le_exp_iff]; positivity
  have hqT : q ≤ exp ((T : ℝ) / 2) := by rw [hq, exp_le_exp]; nlinarith
  have hpT : exp (-((T : ℝ) / 2)) ≤ p := by rw [hp, exp_le_exp]; linarith
  set E := exp ((T : ℝ) / 2) with hE
  have hE0 : 0 < E := exp_pos _
  have hE1 : 1 ≤ E := by rw [hE, one_le_exp_iff]; positivity
  have hEi : exp (-((T : ℝ) / 2)) = 1 / E := by rw [exp_neg, one_div]
  have hE2 : exp (-(T : ℝ)) = 1 / E ^ 2 := by
    rw [exp_neg, one_div, hE, ← exp_nat_mul]; congr 2; push_cast; ring
  rw [hEi] at hpT
  have hden : 0 < p + 3 * q := by linarith
  have h3a : 3 * a * q ≤ 1 / (2 * E) := by
    rw [ha, hE2]
    calc 3 * (1 / E ^ 2 / 6) * q ≤ 3 * (1 / E ^ 2 / 6) * E := by
          apply mul_le_mul_of_nonneg_left hqT; positivity
      _ = 1 / (2 * E) := by field_simp; norm_num
  constructor
  · rw [le_div_iff₀ hden, hE2]
    have h4 : 1 / (2 * E) ≤ p - 3 * a * q := by
      have : 1 / E = 2 * (1 / (2 * E)) := by field_simp
      linarith
    refine le_trans ?_ h4
    calc 1 / E ^ 2 / 8 * (p + 3 * q) ≤ 1 / E ^ 2 / 8 * (4 * E) := by
          apply mul_le_mul_of_nonneg_left _ (by positivity); linarith
      _ = 1 / (2 * E) := by field_simp; norm_num
  · rw [div_le_iff₀ hden]
    have : 0 ≤ 3 * a * q := by positivity
    linarith

/-- What the run looks like: only the bad hypothesis is ever chosen. -/
theorem sep_reachable {s₀ : AdaBoost (Fn Nat ℝ)} {T : Nat} (hT : adaboostLimit sepSample s₀ = T) {n : Nat} {qs : List (List ℝ)}
    {s : AdaBoost (Fn Nat ℝ)}
    (hr : (AdaBoost.booster sepSample).Reachable (sepLearner (exp (-(T : ℝ)) / 6) (exp (-(T : ℝ)) / 8)) s₀ n qs s) :
    ∃ W, 0 ≤ W ∧ W ≤ (n : ℝ) / 2 ∧ (∀ x : Nat, weightedConf s.weights s.hypotheses x = W * conf (sepBad (exp (-(T : ℝ)) / 6)) x) ∧
      ∀ h ∈ s.hypotheses, h = sepBad (exp (-(T : ℝ)) / 6) := by
  set a := exp (-(T : ℝ)) / 6 with ha
  set ε := exp (-(T : ℝ)) / 8 with hε
  induction hr with
  | start hp =>
    have hi := AdaBoost.inv_of_reachable (Booster.Reachable.start (B := AdaBoost.booster sepSample) (wl := sepLearner a ε) hp)
    refine ⟨0, le_rfl, by simp, fun x => ?_, ?_⟩
    · rw [List.length_eq_zero_iff.1 hi.wlen]; simp [weightedConf]
    · rw [List.length_eq_zero_iff.1 hi.hlen]; simp
  | @step n qs s₁ out hr hb hf ih =>
    obtain ⟨W, w0, w1, w2, w3⟩ := ih
    have hi := AdaBoost.inv_of_reachable hr
    obtain ⟨h1, h2, h3, h4⟩ := AdaBoost.boost_cont hi.ne hi.dist hb hf
    have hn : n ≤ T := by have := hi.le; rw [show s₁.maxIter = adaboostLimit sepSample s₀ from hi.max, hT] at this; exact this
    have hWT : W ≤ (T : ℝ) / 2 := by
      have : (n : ℝ) ≤ T := by exact_mod_cast hn
      linarith
    have hedge := sep_bad_edge a W _ w2
    rw [← hi.dist] at hedge
    obtain ⟨b1, b2⟩ := sep_bounds w0 hWT
    rw [← ha, ← hedge] at b1 b2
    have hgood := sep_good_edge ε (d := s₁.dist) (by rw [hi.dist]; simp [Spec.expWeights])
      (by rw [hi.dist]; exact (expWeights_posProb _ hi.ne _).2)
    have hwl : sepLearner a ε (n + 1) s₁.dist = sepBad a := by
      unfold sepLearner
      rw [if_pos (by rw [hgood]; exact b1)]
    rw [hwl] at h4
    obtain ⟨k1, k2⟩ := hypWeight_le_third (lt_of_lt_of_le (by positivity) b1) b2
    rw [h4]
    refine ⟨W + AdaBoost.hypWeight (Spec.edge sepSample s₁.dist (conf (sepBad a))), by linarith, ?_, fun x => ?_, ?_⟩
    · push_cast; linarith
    · simp only []
      rw [weightedConf_append _ _ (by rw [hi.wlen, hi.hlen]), w2]; ring
    · intro h hh
      rcases List.mem_append.1 hh with h' | h'
      · exact w3 h h'
      · simpa using h'

/-- C84, a disagreement with the documentation ("`tolerance(ε)` … training error is less than `ε` if the training examples are linearly
separable"; "after `max_loop()` iterations AdaBoost guarantees zero training error … if the training examples are linearly separable"):
for every tolerance `τ ∈ (0, 1]` there are a class of two hypotheses, one of which classifies all four examples of a sample
correctly, such that AdaBoost with the learner that always returns the hypothesis of larger edge returns a hypothesis that is
wrong on three of the four examples. -/
theorem adaboost_separable_claim_false (τ : ℝ) (hτ : 0 < τ) (hτ1 : τ ≤ 1) :
    ∃ (good bad : Fn Nat ℝ) (wl : WeakLearner ℝ (Fn Nat ℝ)) (n : Nat) (f : WeightedMajority ℝ (Fn Nat ℝ)) (qs : List (List ℝ)),
      (∀ e ∈ sepSample, 0 < e.2 * conf good e.1) ∧
      (∀ e ∈ sepSample, |conf good e.1| ≤ (1 : ℝ) ∧ |conf bad e.1| ≤ (1 : ℝ)) ∧
      (∀ k d, (wl k d = good ∨ wl k d = bad) ∧ Spec.edge sepSample d (conf good) ≤ Spec.edge sepSample d (conf (wl k d)) ∧
        Spec.edge sepSample d (conf bad) ≤ Spec.edge sepSample d (conf (wl k d))) ∧
      (AdaBoost.booster sepSample).run wl n ((AdaBoost.init sepSample).setTolerance τ) = some (.ok (f, qs)) ∧
      Spec.errors sepSample (predict (K := ℝ) f) = 3 := by
  set s₀ : AdaBoost (Fn Nat ℝ) := (AdaBoost.init sepSample).setTolerance τ with hs₀
  set T := adaboostLimit sepSample s₀ with hT
  have hTpos : 0 < T := by
    rw [hT]
    unfold adaboostLimit
    show 0 < ⌊log (sepSample.length : ℝ) / τ ^ 2⌋₊
    rw [Nat.floor_pos, le_div_iff₀ (by positivity)]
    have : log ((sepSample.length : ℕ) : ℝ) = 2 * log 2 := by
      rw [show ((sepSample.length : ℕ) : ℝ) = 2 ^ 2 by simp [sepSample]; norm_num, log_pow]; norm_num
    rw [this]
    nlinarith [log_two_gt]
  set a := exp (-(T : ℝ)) / 6 with ha
  set ε := exp (-(T : ℝ)) / 8 with hε
  have hexpT : exp (-(T : ℝ)) ≤ 1 := by rw [exp_le_one_iff]; linarith [(Nat.cast_nonneg T : (0 : ℝ) ≤ T)]
  have ha0 : 0 < a := by positivity
  have hε0 : 0 < ε := by positivity
  have ha1 : a ≤ 1 := by rw [ha]; linarith
  have hε1 : ε ≤ 1 := by rw [hε]; linarith
  have hmax : ∀ k d, (sepLearner a ε k d = sepGood ε ∨ sepLearner a ε k d = sepBad a) ∧
      Spec.edge sepSample d (conf (sepGood ε)) ≤ Spec.edge sepSample d (conf (sepLearner a ε k d)) ∧
      Spec.edge sepSample d (conf (sepBad a)) ≤ Spec.edge sepSample d (conf (sepLearner a ε k d)) := by
    intro k d
    unfold sepLearner
    split
    · rename_i h; exact ⟨.inr rfl, h, le_rfl⟩
    · rename_i h; exact ⟨.inl rfl, le_rfl, (not_le.1 h).le⟩
  have hpre : ∃ s', (AdaBoost.booster sepSample).preprocess s₀ (sepLearner a ε) = .ok s' := by
    simp only [AdaBoost.booster, AdaBoost.preprocess, sepSample_valid]; exact ⟨_, rfl⟩
  obtain ⟨s', hs'⟩ := hpre
  have hge : ∀ k d, d.length = sepSample.length → Spec.IsPosProb d →
      ε ≤ Spec.edge sepSample d (conf (sepLearner a ε k d)) := by
    intro k d hd hp
    have := (hmax k d).2.1
    rwa [sep_good_edge ε hd hp.2] at this
  have hr0 : (AdaBoost.booster sepSample).Reachable (sepLearner a ε) s₀ 0 [] s' := .start hs'
  obtain ⟨f, qs, hrun⟩ := (adaboost_returns_iff sepSample s₀ (sepLearner a ε) sepSample_valid
    (fun k d hd hp => hε0.le.trans (hge k d hd hp))).2 ⟨0, [], s', hr0, hTpos, by
      have hi := AdaBoost.inv_of_reachable hr0
      exact lt_of_lt_of_le hε0 (hge _ _ (by rw [hi.dist]; simp [Spec.expWeights]) (by rw [hi.dist]; exact expWeights_posProb _ hi.ne _))⟩
  refine ⟨sepGood ε, sepBad a, sepLearner a ε, _, f, qs, ?_, ?_, hmax, hrun, ?_⟩
  · intro e he
    simp only [sepSample, List.mem_cons, List.not_mem_nil, or_false] at he
    rcases he with rfl | rfl | rfl | rfl <;> simp [sepGood, conf, hε0]
  · intro e he
    simp only [sepSample, List.mem_cons, List.not_mem_nil, or_false] at he
    rcases he with rfl | rfl | rfl | rfl <;> simp [sepGood, sepBad, conf, abs_of_pos hε0, abs_of_pos ha0, ha1, hε1]
  · obtain ⟨n, qs', s, out, k, h1, h2, h3, h4, h5, h6⟩ := (AdaBoost.booster sepSample).run_spec _ s₀ hrun
    have hi := AdaBoost.inv_of_reachable h1
    obtain ⟨W, w0, w1, w2, w3⟩ := sep_reachable hT.symm h1
    have hn : n ≤ T := by have := hi.le; rw [show s.maxIter = adaboostLimit sepSample s₀ from hi.max] at this; exact this
    have hWT : W ≤ (T : ℝ) / 2 := by
      have : (n : ℝ) ≤ T := by exact_mod_cast hn
      linarith
    have hedge := sep_bad_edge a W _ w2
    rw [← hi.dist] at hedge
    obtain ⟨b1, b2⟩ := sep_bounds w0 hWT
    rw [← ha, ← hedge] at b1 b2
    have hgood := sep_good_edge ε (d := s.dist) (by rw [hi.dist]; simp [Spec.expWeights])
      (by rw [hi.dist]; exact (expWeights_posProb _ hi.ne _).2)
    have hwl : sepLearner a ε (n + 1) s.dist = sepBad a := by
      unfold sepLearner
      rw [if_pos (by rw [hgood]; exact b1)]
    have hout : out.state.hypotheses = s.hypotheses := by
      simp only [AdaBoost.booster, AdaBoost.boost, margins_def, innerProduct_eq_zip] at h3
      split at h3
      · simp only [Except.ok.injEq] at h3; rw [← h3]
      · rw [hwl] at h3
        rw [if_neg (by rw [abs_of_pos (lt_of_lt_of_le hε0 b1)]; linarith)] at h3
        split at h3
        · simp at h3
        · simp only [Except.ok.injEq] at h3
          rw [← h3] at h4; simp at h4
    have hpost : WeightedMajority.fromSlices out.state.weights out.state.hypotheses = .ok f := h6
    obtain ⟨-, hlen, z, hz, hkept⟩ := fromSlices_spec hpost
    have hall : ∀ h ∈ f.hypotheses, h = sepBad a := by
      intro h hh
      have e1 : f.hypotheses = ((List.zip f.weights f.hypotheses).map (fun p => (p.1 * z, p.2))).map Prod.snd := by
        rw [List.map_map]
        show f.hypotheses = (List.zip f.weights f.hypotheses).map Prod.snd
        rw [List.map_snd_zip (by omega)]
      rw [e1, hkept] at hh
      obtain ⟨p, hp, rfl⟩ := List.mem_map.1 hh
      exact w3 _ (hout ▸ (List.of_mem_zip (List.mem_filter.1 hp).1).2)
    have hconf : ∀ x : Nat, (conf f x : ℝ) = conf (sepBad a) x := by
      intro x
      have := confidence_between hpost x (conf (sepBad a) x) (conf (sepBad a) x) (fun g hg => by rw [hall g hg]; exact ⟨le_rfl, le_rfl⟩)
      exact le_antisymm this.2 this.1
    have hpred : ∀ x : Nat, predict (K := ℝ) f x = 1 := by
      intro x
      rw [(predict_eq_one_iff (K := ℝ) f x).1, hconf]
      simp only [conf, sepBad]
      split <;> linarith
    simp only [Spec.errors, sepSample, hpred]
    norm_num

/-- The hypotheses of the positive theorem are met: the class of one hypothesis with margin `1/2` and `τ = 1/4`. -/
example : ∃ n f qs, (AdaBoost.booster exSample).run exLearner n ((AdaBoost.init exSample).setTolerance (1 / 4)) = some (.ok (f, qs)) ∧
    Spec.errors exSample (predict (K := ℝ) f) = 0 :=
  adaboost_separable_zero_error exSample exSample_valid exSample_pm {exLearner 0 []}
    (fun h hh => by rw [Set.mem_singleton_iff.1 hh]; exact exLearner_conf 0 []) exLearner (fun k d => by simp [exLearner])
    (fun k d _ _ h hh => by rw [Set.mem_singleton_iff.1 hh]; simp [exLearner]) (by norm_num) (by norm_num) [(1, exLearner 0 [])]
    (by simp) (by simp) (by
      intro e he
      simp [exSample] at he
      rcases he with rfl | rfl <;> simp [Spec.vote, exLearner, conf] <;> norm_num)

end Miniboosts.Props
