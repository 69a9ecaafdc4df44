import Verif.Props.AdaBoostV
import Verif.Lemmas.MadaBoost

/-! # Properties of MadaBoost (C13, C14, C52, C63) -/

namespace Miniboosts.Props

open Real MadaBoost

variable {H X : Type*} [Classifier H X ℝ]

/-- The step size of a MadaBoost round with edge `γ`: with `ε = (1-γ)/2` and `ε' = √(ε/2)` it is
`√(ε'/(1-ε'))`. -/
noncomputable def madaStep (γ : ℝ) : ℝ := √(√((1 - γ) / 4) / (1 - √((1 - γ) / 4)))

theorem madaStep_eq : madaStep = betaOf := by
  funext γ
  unfold madaStep betaOf
  rw [show 1 / 2 * (1 / 2 * (1 - γ)) = (1 - γ) / 4 by ring]

/-- The weights proportional to `exp(min(1, score))`. -/
noncomputable def clippedWeights (S : Examples X ℝ) (score : X × ℝ → ℝ) : List ℝ :=
  S.map fun e => exp (min (score e) 1) / (S.map fun e => exp (min (score e) 1)).sum

/-- The iteration limit in force: `force_quit_at` when set, else `⌈(m-1)/tolerance²⌉`. -/
noncomputable def madaLimit (S : Examples X ℝ) (s₀ : MadaBoost H) : Nat :=
  match s₀.forceQuitAt with
  | some it => it
  | none => ⌈((S.length : ℝ) - 1) / s₀.tolerance ^ 2⌉₊

/-- C13: in every round the weight vector handed to the weak learner has one strictly positive entry per
example and sums to one; it is proportional to `exp(min(1, b))` where the score `b` of an example is
`1/m` plus the sum over the past rounds of `step * y h(x)`. -/
theorem madaboost_weights (S : Examples X ℝ) (s₀ : MadaBoost H)
    (wl : WeakLearner ℝ H) (n : Nat) (qs : List (List ℝ)) (s : MadaBoost H)
    (hr : (MadaBoost.booster S).Reachable wl s₀ n qs s) (out : BoostOut (MadaBoost H) ℝ)
    (hb : (MadaBoost.booster S).boost s wl (n + 1) = .ok out) :
    (∀ q ∈ qs ++ out.queries, q.length = S.length ∧ Spec.IsPosProb q) ∧
    (∀ q ∈ out.queries, q = clippedWeights S fun e => 1 / (S.length : ℝ) + e.2 *
      Spec.vote conf (List.zip ((Spec.edges S conf qs s.hypotheses).map madaStep) s.hypotheses) e.1) := by
  have hi := inv_of_reachable hr
  have hbc := boost_cases (wl := wl) (it := n + 1) hi.ne hi.betas
  simp only [] at hbc
  rw [show (booster S).boost s wl (n + 1) = boost S s wl (n + 1) from rfl, hbc] at hb
  set F : X → ℝ := weightedConf (X := X) ((Spec.edges S conf qs s.hypotheses).map betaOf)
      s.hypotheses with hF
  have hq : ∀ q ∈ out.queries, q = clip S F := by
    split at hb
    · simp only [Except.ok.injEq] at hb; subst hb; simp
    · split at hb <;> (simp only [Except.ok.injEq] at hb; subst hb; simp)
  constructor
  · intro q h
    rcases List.mem_append.1 h with h | h
    · exact hi.q q h
    · rw [hq q h]; exact clip_posProb S hi.ne F
  · intro q h
    rw [hq q h]
    unfold clip clippedWeights
    simp only [madaStep_eq, ← weightedConf_eq_vote]
    rfl

/-- C13 (clipping): in any weight vector handed out, no example outweighs an example whose score reached
the cap 1; in particular all examples at the cap have the same, largest, weight. -/
theorem madaboost_cap (S : Examples X ℝ) (hne : S ≠ []) (score : X × ℝ → ℝ) (i j : Nat) (e e' : X × ℝ)
    (he : S[i]? = some e) (he' : S[j]? = some e') (hj : 1 ≤ score e') (w w' : ℝ)
    (hw : (clippedWeights S score)[i]? = some w) (hw' : (clippedWeights S score)[j]? = some w') :
    w ≤ w' := by
  have hp : 0 < (S.map fun e => exp (min (score e) 1)).sum :=
    sum_map_pos S _ hne (fun _ _ => exp_pos _)
  simp only [clippedWeights, List.getElem?_map, he, he', Option.map_some, Option.some.injEq] at hw hw'
  rw [← hw, ← hw']
  apply div_le_div_of_nonneg_right _ hp.le
  apply exp_le_exp.2
  rw [min_eq_right hj]
  exact min_le_right _ _

/-- C63: whatever the weak learner does, a run finishes after at most `limit + 1` calls of `boost`, and
the weak learner is called at most `limit` times at any moment of the run. -/
theorem madaboost_terminates (S : Examples X ℝ) (s₀ : MadaBoost H) (wl : WeakLearner ℝ H) :
    (∃ r, (MadaBoost.booster S).run wl (madaLimit S s₀ + 1) s₀ = some r) ∧
    (∀ n qs s out, (MadaBoost.booster S).Reachable wl s₀ n qs s →
      (MadaBoost.booster S).boost s wl (n + 1) = .ok out →
      (qs ++ out.queries).length ≤ madaLimit S s₀) := by
  constructor
  · apply Booster.run_terminates
    intro qs s₁ out hr hb hf
    have hi := inv_of_reachable hr
    have hm : s₁.maxIter = madaLimit S s₀ := hi.max
    have hbc := boost_cases (wl := wl) (it := madaLimit S s₀ + 1) hi.ne hi.betas
    simp only [] at hbc
    rw [if_pos (by omega)] at hbc
    rw [show (booster S).boost s₁ wl _ = boost S s₁ wl _ from rfl, hbc, Except.ok.injEq] at hb
    subst hb; simp at hf
  · intro n qs s out hr hb
    have hi := inv_of_reachable hr
    have hm : s.maxIter = madaLimit S s₀ := hi.max
    have h1 := hi.le
    have h2 := hi.qlen
    have hbc := boost_cases (wl := wl) (it := n + 1) hi.ne hi.betas
    simp only [] at hbc
    rw [show (booster S).boost s wl _ = boost S s wl _ from rfl, hbc] at hb
    split at hb
    · simp only [Except.ok.injEq] at hb; subst hb; simp; omega
    · split at hb <;> (simp only [Except.ok.injEq] at hb; subst hb; simp; omega)

/-- C63/C61: a call of `boost` never panics in a run that got through preprocessing. -/
theorem madaboost_boost_never_panics (S : Examples X ℝ) (s₀ : MadaBoost H)
    (wl : WeakLearner ℝ H) (n : Nat) (qs : List (List ℝ)) (s : MadaBoost H)
    (hr : (MadaBoost.booster S).Reachable wl s₀ n qs s) :
    ∃ out, (MadaBoost.booster S).boost s wl (n + 1) = .ok out := by
  have hi := inv_of_reachable hr
  have hbc := boost_cases (wl := wl) (it := n + 1) hi.ne hi.betas
  simp only [] at hbc
  rw [show (booster S).boost s wl _ = boost S s wl _ from rfl, hbc]
  split
  · exact ⟨_, rfl⟩
  · split <;> exact ⟨_, rfl⟩

/-- C63: the combined hypothesis keeps exactly the rounds with a positive edge: the vote weight of a round
is positive exactly when its edge is, and building the hypothesis panics exactly when no round had a
positive edge. -/
theorem madaboost_vote_weights (S : Examples X ℝ) (s₀ : MadaBoost H)
    (wl : WeakLearner ℝ H) (n : Nat) (qs : List (List ℝ)) (s : MadaBoost H)
    (hr : (MadaBoost.booster S).Reachable wl s₀ n qs s) :
    List.Forall₂ (fun γ w => 0 < w ↔ 0 < γ) (Spec.edges S conf qs s.hypotheses) s.alphas ∧
    ((∃ f, (MadaBoost.booster S).postprocess s = .ok f) ↔
      ∃ γ ∈ Spec.edges S conf qs s.hypotheses, 0 < γ) := by
  have hi := inv_of_reachable hr
  constructor
  · rw [hi.alphas, List.forall₂_map_right_iff, List.forall₂_same]
    intro γ hγ
    exact alphaOf_pos_iff (hi.edges γ hγ)
  · rw [show (MadaBoost.booster S).postprocess s =
      WeightedMajority.fromSlices s.alphas s.hypotheses from rfl, fromSlices_ok_iff]
    constructor
    · rintro ⟨p, hp, hpos⟩
      have : p.1 ∈ s.alphas := (List.of_mem_zip hp).1
      rw [hi.alphas] at this
      obtain ⟨γ, hγ, h⟩ := List.mem_map.1 this
      rw [← h] at hpos
      exact ⟨γ, hγ, (alphaOf_pos_iff (hi.edges γ hγ)).1 hpos⟩
    · rintro ⟨γ, hγ, hpos⟩
      have : alphaOf γ ∈ s.alphas := by rw [hi.alphas]; exact List.mem_map.2 ⟨γ, hγ, rfl⟩
      obtain ⟨i, hi', hget⟩ := List.getElem_of_mem this
      have hl : i < s.hypotheses.length := by rw [hi.hlen, ← hi.alen]; exact hi'
      refine ⟨(s.alphas[i], s.hypotheses[i]), ?_, ?_⟩
      · rw [List.mem_iff_getElem]
        exact ⟨i, by simp [hi', hl], by simp⟩
      · rw [hget]; exact (alphaOf_pos_iff (hi.edges γ hγ)).2 hpos

/-- C14, negation: take two examples on which all past hypotheses did equally well, and a continuing round
whose hypothesis gets the first right and the second wrong.  Then, whatever the edge, the next weight of the
*correctly* classified example is at least that of the misclassified one, and strictly larger unless the
score of the misclassified one already sits at the cap. -/
theorem madaboost_favours_correct_examples (S : Examples X ℝ) (s₀ : MadaBoost H)
    (wl : WeakLearner ℝ H) (n : Nat) (qs : List (List ℝ)) (s : MadaBoost H)
    (hr : (MadaBoost.booster S).Reachable wl s₀ n qs s) (out : BoostOut (MadaBoost H) ℝ)
    (hb : (MadaBoost.booster S).boost s wl (n + 1) = .ok out) (hf : out.flow = .cont)
    (q : List ℝ) (hq : q ∈ out.queries) (i j : Nat) (e e' : X × ℝ)
    (he : S[i]? = some e) (he' : S[j]? = some e')
    (hsame : ∀ h ∈ s.hypotheses, e.2 * conf h e.1 = e'.2 * conf h e'.1)
    (hi1 : e.2 * conf (wl (n + 1) q) e.1 = 1) (hj1 : e'.2 * conf (wl (n + 1) q) e'.1 = -1)
    (out' : BoostOut (MadaBoost H) ℝ) (hb' : (MadaBoost.booster S).boost out.state wl (n + 2) = .ok out')
    (q' : List ℝ) (hq' : q' ∈ out'.queries) (w w' b' : ℝ) (hw : q'[i]? = some w) (hw' : q'[j]? = some w')
    (hbeta : out.state.betas[j]? = some b') :
    w' ≤ w ∧ (b' < 1 → w' < w) := by
  have hi := inv_of_reachable hr
  have hi2 := inv_of_reachable (Booster.Reachable.step hr hb hf)
  have hbc := boost_cases (wl := wl) (it := n + 1) hi.ne hi.betas
  simp only [] at hbc
  rw [show (booster S).boost s wl _ = boost S s wl _ from rfl, hbc] at hb
  have hs' : ∀ (ws : List ℝ) (hs : List H), (∀ h ∈ hs, e.2 * conf h e.1 = e'.2 * conf h e'.1) →
      e.2 * weightedConf ws hs e.1 = e'.2 * weightedConf ws hs e'.1 := by
    intro ws
    induction ws with
    | nil => intro hs _; simp [weightedConf]
    | cons a ws ih =>
      intro hs hall
      cases hs with
      | nil => simp [weightedConf]
      | cons h hs =>
        have h1 := hall h (by simp)
        have h2 := ih hs (fun h' hh => hall h' (by simp [hh]))
        simp only [weightedConf, List.zipWith_cons_cons, List.sum_cons] at h2 ⊢
        linear_combination a * h1 + h2
  have hs := hs' ((Spec.edges S conf qs s.hypotheses).map betaOf) _ hsame
  set F : X → ℝ := weightedConf (X := X) ((Spec.edges S conf qs s.hypotheses).map betaOf)
      s.hypotheses with hF
  have hbc2 := boost_cases (wl := wl) (it := n + 2) hi2.ne hi2.betas
  simp only [] at hbc2
  rw [show (booster S).boost out.state wl _ = boost S out.state wl _ from rfl, hbc2] at hb'
  have hbeta2 := hi2.betas
  set F2 : X → ℝ := weightedConf (X := X)
    ((Spec.edges S conf (qs ++ out.queries) out.state.hypotheses).map betaOf) out.state.hypotheses with hF2
  have hq'' : q' = clip S F2 := by
    split at hb'
    · simp only [Except.ok.injEq] at hb'; subst hb'; simp at hq'
    · split at hb' <;> (simp only [Except.ok.injEq] at hb'; subst hb'; simpa using hq')
  split at hb
  · simp only [Except.ok.injEq] at hb; subst hb; simp at hf
  split at hb
  · simp only [Except.ok.injEq] at hb; subst hb; simp at hf
  rename_i hedge
  simp only [Except.ok.injEq] at hb
  have hqc : q = clip S F := by subst hb; simpa using hq
  have hbo : out.state.betas = S.map fun e => (1 : ℝ) / (S.length : ℝ) + e.2 * (F e.1 +
      betaOf (Spec.edge S (clip S F) (conf (wl (n + 1) (clip S F)))) *
        conf (wl (n + 1) (clip S F)) e.1) := by subst hb; rfl
  have hpos := betaOf_pos (not_le.1 hedge)
  set β := betaOf (Spec.edge S (clip S F) (conf (wl (n + 1) (clip S F)))) with hβ
  rw [hqc] at hi1 hj1
  -- the two scores
  have hsc : ∀ (k : Nat) (a : X × ℝ), S[k]? = some a →
      1 / (S.length : ℝ) + a.2 * F2 a.1 = 1 / (S.length : ℝ) + a.2 * (F a.1 +
        β * conf (wl (n + 1) (clip S F)) a.1) := by
    intro k a ha
    have h1 := congrArg (fun l => l[k]?) hbo
    have h2 := congrArg (fun l => l[k]?) hbeta2
    simp only [List.getElem?_map, ha, Option.map_some] at h1 h2
    rw [h1, Option.some.injEq] at h2
    exact h2.symm
  have key : 1 / (S.length : ℝ) + e'.2 * F2 e'.1 < 1 / (S.length : ℝ) + e.2 * F2 e.1 := by
    rw [hsc i e he, hsc j e' he']
    have : e.2 * (F e.1 + β * conf (wl (n + 1) (clip S F)) e.1) -
        e'.2 * (F e'.1 + β * conf (wl (n + 1) (clip S F)) e'.1) = 2 * β := by
      linear_combination hs + β * hi1 - β * hj1
    linarith
  have hp : 0 < (S.map fun e => exp (min (1 / (S.length : ℝ) + e.2 * F2 e.1) 1)).sum :=
    sum_map_pos S _ hi.ne (fun _ _ => exp_pos _)
  have hb2 : b' = 1 / (S.length : ℝ) + e'.2 * F2 e'.1 := by
    rw [hbeta2, List.getElem?_map, he', Option.map_some, Option.some.injEq] at hbeta
    exact hbeta.symm
  rw [hq''] at hw hw'
  simp only [clip, List.getElem?_map, he, he', Option.map_some, Option.some.injEq] at hw hw'
  rw [← hw, ← hw']
  constructor
  · apply div_le_div_of_nonneg_right _ hp.le
    apply exp_le_exp.2
    exact min_le_min_right _ key.le
  · intro hlt
    apply div_lt_div_of_pos_right _ hp
    apply exp_lt_exp.2
    rw [hb2] at hlt
    rw [min_eq_left hlt.le]
    exact lt_min key hlt

/-- C52 for MadaBoost. -/
theorem madaboost_run_history_independent (S : Examples X ℝ) (s t : MadaBoost H)
    (htol : s.tolerance = t.tolerance) (hq : s.forceQuitAt = t.forceQuitAt)
    (wl : WeakLearner ℝ H) (fuel : Nat) :
    (MadaBoost.booster S).run wl fuel s = (MadaBoost.booster S).run wl fuel t := by
  apply Booster.run_congr (MadaBoost.booster S) wl
    (fun a b => a.betas = b.betas ∧ a.alphas = b.alphas ∧ a.hypotheses = b.hypotheses ∧
      a.maxIter = b.maxIter)
  · rintro a b it ⟨h1, h2, h3, h4⟩
    simp only [MadaBoost.booster, MadaBoost.boost, h1, h2, h3, h4]
    split
    · exact .inr ⟨_, _, rfl, rfl, rfl, rfl, h1, h2, h3, h4⟩
    · generalize beta2distribution b.betas = w
      cases w with
      | error e => exact .inl ⟨e, rfl, rfl⟩
      | ok d =>
        simp only []
        split
        · exact .inr ⟨_, _, rfl, rfl, rfl, rfl, rfl, rfl, rfl, rfl⟩
        · generalize updateParams b.betas (margins S (wl it d)) _ = w
          cases w with
          | error e => exact .inl ⟨e, rfl, rfl⟩
          | ok p => exact .inr ⟨_, _, rfl, rfl, rfl, rfl, rfl, rfl, rfl, rfl⟩
  · rintro a b ⟨h1, h2, h3, h4⟩
    simp only [MadaBoost.booster, MadaBoost.postprocess, h2, h3]
  · simp only [MadaBoost.booster, MadaBoost.preprocess]
    cases checkBinary S with
    | error e => exact .inl ⟨e, rfl, rfl⟩
    | ok u =>
      refine .inr ⟨_, _, rfl, rfl, rfl, rfl, rfl, ?_⟩
      simp only [MadaBoost.maxLoop, htol, hq]

section nonvacuity

/-- States with any number of rounds up to the limit are reachable. -/
theorem madaboost_reachable (S : Examples X ℝ) (s₀ : MadaBoost H) (wl : WeakLearner ℝ H)
    (hv : checkBinary S = .ok ())
    (hedge : ∀ k d, d.length = S.length → Spec.IsPosProb d → |Spec.edge S d (conf (wl k d))| < 1)
    (n : Nat) (hn : n ≤ madaLimit S s₀) : ∃ qs s, (MadaBoost.booster S).Reachable wl s₀ n qs s := by
  induction n with
  | zero =>
    have : ∃ s', (booster S).preprocess s₀ wl = .ok s' := by
      simp only [booster, preprocess, hv]; exact ⟨_, rfl⟩
    obtain ⟨s', hs'⟩ := this
    exact ⟨_, _, .start hs'⟩
  | succ n ih =>
    obtain ⟨qs, s, hr⟩ := ih (by omega)
    have hi := inv_of_reachable hr
    have hm : s.maxIter = madaLimit S s₀ := hi.max
    have hbc := boost_cases (wl := wl) (it := n + 1) hi.ne hi.betas
    simp only [] at hbc
    rw [if_neg (by omega), if_neg (not_le.2 (hedge _ _ (clip_posProb S hi.ne _).1
      (clip_posProb S hi.ne _).2))] at hbc
    exact ⟨_, _, .step hr hbc rfl⟩

/-- The hypotheses of the MadaBoost theorems are met in a five-round history. -/
example : ∃ qs s, (MadaBoost.booster exSample).Reachable exLearner
    ((MadaBoost.init exSample).setForceQuitAt 6) 5 qs s :=
  madaboost_reachable _ _ _ exSample_valid
    (fun k d hl hd => by rw [exLearner_edge k d hl hd, abs_of_pos] <;> norm_num) 5
    (by simp [madaLimit, MadaBoost.setForceQuitAt])

/-- Three examples and a hypothesis that is right on rows 0 and 2 and wrong on row 1. -/
def exSample3 : Examples Nat ℝ := [(0, 1), (1, 1), (2, -1)]

/-- The learner that always returns that hypothesis. -/
noncomputable def exLearner3 : WeakLearner ℝ (Fn Nat ℝ) := fun _ _ => ⟨fun x => if x = 0 then 1 else -1⟩

theorem exSample3_valid : checkBinary exSample3 = .ok () := by
  have h0 : ¬ ((0 : ℝ) ≤ -1) := by norm_num
  have h1 : ⌈(-1 : ℝ)⌉ = -1 := by
    have := Int.ceil_intCast (R := ℝ) (-1); simpa using this
  simp [checkBinary, isValidBinary, exSample3, trunc, asI32, h0, h1]

theorem exLearner3_edge (k : Nat) (d : List ℝ) (hl : d.length = exSample3.length)
    (hd : Spec.IsPosProb d) : |Spec.edge exSample3 d (conf (exLearner3 k d))| < 1 := by
  obtain ⟨hpos, hsum⟩ := hd
  match d, hl with
  | [a, b, c], _ =>
    simp only [List.sum_cons, List.sum_nil, add_zero] at hsum
    have ha := hpos a (by simp)
    have hb := hpos b (by simp)
    have hc := hpos c (by simp)
    simp [Spec.edge, exSample3, exLearner3, conf]
    rw [abs_lt]; constructor <;> linarith

/-- C14 fails concretely: in the second round of a run on three examples, the example classified correctly in
the first round weighs strictly more than the misclassified one. -/
theorem madaboost_favours_correct_witness :
    ∃ (s : MadaBoost (Fn Nat ℝ)) (qs : List (List ℝ)) (out : BoostOut (MadaBoost (Fn Nat ℝ)) ℝ)
      (q : List ℝ) (w w' : ℝ),
      (MadaBoost.booster exSample3).Reachable exLearner3
        ((MadaBoost.init exSample3).setForceQuitAt 6) 1 qs s ∧
      (MadaBoost.booster exSample3).boost s exLearner3 2 = .ok out ∧ q ∈ out.queries ∧
      q[0]? = some w ∧ q[1]? = some w' ∧ w' < w := by
  obtain ⟨qs, s, hr⟩ := madaboost_reachable exSample3 ((MadaBoost.init exSample3).setForceQuitAt 6)
    exLearner3 exSample3_valid exLearner3_edge 0 (Nat.zero_le _)
  have hi := inv_of_reachable hr
  have hm : s.maxIter = 6 := hi.max
  have hbc := boost_cases (wl := exLearner3) (it := 0 + 1) hi.ne hi.betas
  simp only [] at hbc
  set F : Nat → ℝ := weightedConf (X := Nat)
    ((Spec.edges exSample3 conf qs s.hypotheses).map betaOf) s.hypotheses with hF
  have hcp := clip_posProb exSample3 hi.ne F
  rw [if_neg (by omega), if_neg (not_le.2 (exLearner3_edge _ _ hcp.1 hcp.2))] at hbc
  have hr2 := Booster.Reachable.step hr hbc rfl
  have hi2 := inv_of_reachable hr2
  obtain ⟨out', hb'⟩ := madaboost_boost_never_panics _ _ _ _ _ _ hr2
  have hbc2 := boost_cases (wl := exLearner3) (it := 2) hi2.ne hi2.betas
  simp only [] at hbc2
  rw [if_neg (by rw [hm]; omega)] at hbc2
  have hw2 := madaboost_weights _ _ _ _ _ _ hr2 out' hb'
  have hq2 : ∃ q', q' ∈ out'.queries := by
    rw [show (booster exSample3).boost _ exLearner3 _ = boost exSample3 _ exLearner3 _ from rfl, hbc2] at hb'
    split at hb' <;> (rw [Except.ok.injEq] at hb'; subst hb'; exact ⟨_, List.mem_singleton.2 rfl⟩)
  obtain ⟨q', hq'⟩ := hq2
  have hlen := (hw2.1 q' (List.mem_append.2 (.inr hq'))).1
  match q', hlen with
  | [w, w', w''], _ =>
    have hbl := hi2.betas
    have hs0 : s.hypotheses = [] := List.length_eq_zero_iff.1 hi.hlen
    refine ⟨_, _, out', _, w, w', hr2, hb', hq', rfl, rfl, ?_⟩
    refine (madaboost_favours_correct_examples exSample3 _ exLearner3 0 qs s hr _ hbc rfl _
      (List.mem_singleton.2 rfl) 0 1 (0, 1) (1, 1) rfl rfl ?_ ?_ ?_ out' hb' _ hq' w w'
      ((1 : ℝ) / (exSample3.length : ℝ) + (1 : ℝ) * (F 1 + betaOf (Spec.edge exSample3 (clip exSample3 F)
        (conf (exLearner3 (0 + 1) (clip exSample3 F)))) *
          conf (exLearner3 (0 + 1) (clip exSample3 F)) 1)) rfl rfl (by
            simp only [List.getElem?_map]; rfl)).2 ?_
    · rw [hs0]; simp
    · simp [exLearner3, conf]
    · simp [exLearner3, conf]
    · have hpos := betaOf_pos (exLearner3_edge (0 + 1) _ hcp.1 hcp.2)
      have hF0 : F 1 = 0 := by rw [hF, hs0]; simp [weightedConf]
      have hc : conf (exLearner3 (0 + 1) (clip exSample3 F)) 1 = (-1 : ℝ) := by simp [exLearner3, conf]
      rw [hF0, hc]
      simp only [exSample3, List.length_cons, List.length_nil] at hpos ⊢
      push_cast
      linarith

end nonvacuity

end Miniboosts.Props
