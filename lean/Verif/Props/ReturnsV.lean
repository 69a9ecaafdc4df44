import Verif.Props.Returns

/-! # C61: AdaBoostV with any tolerance, positive or not -/

set_option linter.unusedSectionVars false

namespace Miniboosts.Props

open Miniboosts Spec Real

variable {X H : Type*} [Classifier H X ℝ]

/-- The sign of a vote weight of AdaBoostV. -/
theorem voteV_pos_iff {γ ρ : ℝ} (h1 : |γ| < 1) (h2 : -1 < ρ) (h3 : ρ < 1) :
    0 < AdaBoost.hypWeight γ - AdaBoost.hypWeight ρ ↔ ρ < γ := by
  obtain ⟨ha, hb⟩ := abs_lt.1 h1
  constructor
  · intro h
    by_contra hle
    have := hypWeight_sub_ge ha (not_lt.1 hle) h3
    linarith
  · intro h
    have := hypWeight_sub_ge h2 h.le hb
    linarith

/-- Whether the weights AdaBoostV has collected contain a positive one can be read off the edges: round `k`'s weight is positive if
and only if its edge exceeds the smallest edge seen up to then by more than minus the tolerance. -/
theorem adaboostv_vote_positive_iff {S : Examples X ℝ} {s₀ : AdaBoostV H} {wl : WeakLearner ℝ H} {n : Nat} {qs : List (List ℝ)}
    {s : AdaBoostV H} (h : (AdaBoostV.booster S).Reachable wl s₀ n qs s) :
    ∀ k < n, ∃ γ w, (Spec.edges S conf qs s.hypotheses)[k]? = some γ ∧ s.weights[k]? = some w ∧
      (0 < w ↔ ((Spec.edges S conf qs s.hypotheses).take (k + 1)).foldr min 1 - s₀.tolerance < γ) := by
  induction h with
  | start hp => intro k hk; omega
  | @step n qs s₁ out hr hb hf ih =>
    have hi := AdaBoostV.inv_of_reachable hr
    obtain ⟨h1, h2, h2a, h2b, h3, h4⟩ := AdaBoostV.boost_cont hi.ne hi.dist hb hf
    have hql : qs.length = s₁.hypotheses.length := by rw [hi.qlen, hi.hlen]
    have hel : (Spec.edges S conf qs s₁.hypotheses).length = n := by
      simp [Spec.edges, hi.qlen, hi.hlen]
    rw [h3, h4]
    simp only [edges_append S qs _ hql]
    intro k hk
    by_cases hkn : k < n
    · obtain ⟨γ, w, e1, e2, e3⟩ := ih k hkn
      refine ⟨γ, w, ?_, ?_, ?_⟩
      · rw [List.getElem?_append_left (by omega), e1]
      · rw [List.getElem?_append_left (by rw [hi.wlen]; omega), e2]
      · rw [List.take_append_of_le_length (by omega)]; exact e3
    · have hkn : k = n := by omega
      subst hkn
      refine ⟨Spec.edge S s₁.dist (conf (wl (k + 1) s₁.dist)), AdaBoost.hypWeight (Spec.edge S s₁.dist (conf (wl (k + 1) s₁.dist))) -
        AdaBoost.hypWeight (min (Spec.edge S s₁.dist (conf (wl (k + 1) s₁.dist))) s₁.gamma - s₁.tolerance), ?_, ?_, ?_⟩
      · rw [List.getElem?_append_right (by omega), hel]; simp
      · rw [List.getElem?_append_right (by rw [hi.wlen]), hi.wlen]; simp only [Nat.sub_self, List.getElem?_cons_zero]
      · rw [List.take_of_length_le (by simp [hel]), AdaBoostV.foldr_min_append, ← hi.gamma, ← hi.tol]
        exact voteV_pos_iff h2 h2a h2b

/-- One round of AdaBoostV, for any tolerance: below the limit the call of `boost` continues if and only if the edge of the answer is
strictly between `-1` and `1` and so is the new margin target -- the smallest edge so far minus the tolerance.  It stops the loop if
and only if the edge is out of that range, and otherwise it fails. -/
theorem adaboostv_round_iff (S : Examples X ℝ) (s₀ : AdaBoostV H) (wl : WeakLearner ℝ H) (n : Nat) (qs : List (List ℝ))
    (s : AdaBoostV H) (hr : (AdaBoostV.booster S).Reachable wl s₀ n qs s) (hn : n < adaboostvLimit S s₀) :
    let γ := Spec.edge S s.dist (conf (wl (n + 1) s.dist))
    let ρ := min γ ((Spec.edges S conf qs s.hypotheses).foldr min 1) - s₀.tolerance
    ((∃ out, (AdaBoostV.booster S).boost s wl (n + 1) = .ok out ∧ out.flow = .cont) ↔ |γ| < 1 ∧ -1 < ρ ∧ ρ < 1) ∧
    ((∃ out k, (AdaBoostV.booster S).boost s wl (n + 1) = .ok out ∧ out.flow = .brk k) ↔ 1 ≤ |γ|) := by
  intro γ ρ
  have hi := AdaBoostV.inv_of_reachable hr
  have hmax : s.maxIter = adaboostvLimit S s₀ := hi.max
  have hρ : ρ = min γ s.gamma - s.tolerance := by simp only [ρ, hi.gamma, hi.tol]
  have key : (1 ≤ |γ| ∧ ∃ out k, (AdaBoostV.booster S).boost s wl (n + 1) = .ok out ∧ out.flow = .brk k) ∨
      (|γ| < 1 ∧ (-1 < ρ ∧ ρ < 1) ∧ ∃ out, (AdaBoostV.booster S).boost s wl (n + 1) = .ok out ∧ out.flow = .cont) ∨
      (|γ| < 1 ∧ ¬ (-1 < ρ ∧ ρ < 1) ∧ (AdaBoostV.booster S).boost s wl (n + 1) = .error .nonFinite) := by
    simp only [AdaBoostV.booster, AdaBoostV.boost, AdaBoostV.updateParams, margins_def, innerProduct_eq_zip]
    rw [if_neg (by omega)]
    by_cases h1 : 1 ≤ |γ|
    · left
      rw [if_pos h1]
      exact ⟨h1, _, _, rfl, rfl⟩
    · right
      rw [if_neg h1, hρ]
      by_cases h2 : -1 < min γ s.gamma - s.tolerance ∧ min γ s.gamma - s.tolerance < 1
      · left
        refine ⟨not_le.1 h1, h2, ?_⟩
        rw [if_pos h2]
        have hrw := reweight_expWeights S hi.ne (weightedConf s.weights s.hypotheses)
          (conf (wl (n + 1) s.dist)) (AdaBoost.hypWeight γ - AdaBoost.hypWeight (min γ s.gamma - s.tolerance))
        rw [← hi.dist] at hrw
        unfold AdaBoost.hypWeight at hrw
        rw [hrw]
        exact ⟨_, rfl, rfl⟩
      · right
        refine ⟨not_le.1 h1, h2, ?_⟩
        rw [if_neg h2]
  rcases key with ⟨h1, o, k, h2, h3⟩ | ⟨h1, h0, o, h2, h3⟩ | ⟨h1, h0, h2⟩
  · refine ⟨⟨?_, fun h => absurd h.1 (not_lt.2 h1)⟩, fun _ => h1, fun _ => ⟨o, k, h2, h3⟩⟩
    rintro ⟨o', h2', h3'⟩
    rw [h2, Except.ok.injEq] at h2'; subst h2'; rw [h3] at h3'; cases h3'
  · refine ⟨⟨fun _ => ⟨h1, h0⟩, fun _ => ⟨o, h2, h3⟩⟩, ?_, fun h => absurd h1 (not_lt.2 h)⟩
    rintro ⟨o', k, h2', h3'⟩
    rw [h2, Except.ok.injEq] at h2'; subst h2'; rw [h3] at h3'; cases h3'
  · refine ⟨⟨?_, fun h => absurd h.2 h0⟩, ?_, fun h => absurd h1 (not_lt.2 h)⟩
    · rintro ⟨o', h2', -⟩; rw [h2] at h2'; cases h2'
    · rintro ⟨o', k, h2', -⟩; rw [h2] at h2'; cases h2'

/-- C61 for AdaBoostV, exactly, for every weak learner, every sample and every tolerance: a run returns if and only if it gets an answer
of edge at least one, or makes all its rounds and in one of them the edge exceeded the margin target of that round. -/
theorem adaboostv_returns_iff_general (S : Examples X ℝ) (s₀ : AdaBoostV H) (wl : WeakLearner ℝ H) :
    (∃ f qs, (AdaBoostV.booster S).run wl (adaboostvLimit S s₀ + 1) s₀ = some (.ok (f, qs))) ↔
      ∃ n qs s, (AdaBoostV.booster S).Reachable wl s₀ n qs s ∧
        ((n < adaboostvLimit S s₀ ∧ 1 ≤ Spec.edge S s.dist (conf (wl (n + 1) s.dist))) ∨
          (n = adaboostvLimit S s₀ ∧ ∃ k γ, (Spec.edges S conf qs s.hypotheses)[k]? = some γ ∧
            ((Spec.edges S conf qs s.hypotheses).take (k + 1)).foldr min 1 - s₀.tolerance < γ)) := by
  have hlast : ∀ n qs s, (AdaBoostV.booster S).Reachable wl s₀ n qs s →
      ((∃ f, (AdaBoostV.booster S).postprocess s = .ok f) ↔ ∃ k γ, (Spec.edges S conf qs s.hypotheses)[k]? = some γ ∧
            ((Spec.edges S conf qs s.hypotheses).take (k + 1)).foldr min 1 - s₀.tolerance < γ) := by
    intro n qs s hr
    have hi := AdaBoostV.inv_of_reachable hr
    have hel : (Spec.edges S conf qs s.hypotheses).length = n := by simp [Spec.edges, hi.qlen, hi.hlen]
    rw [show (AdaBoostV.booster S).postprocess s = WeightedMajority.fromSlices s.weights s.hypotheses from rfl, fromSlices_ok_iff]
    constructor
    · rintro ⟨p, hp, hpos⟩
      obtain ⟨k, hk, hget⟩ := List.getElem_of_mem hp
      have hkn : k < n := by simp [hi.wlen, hi.hlen] at hk; exact hk
      obtain ⟨γ, w, e1, e2, e3⟩ := adaboostv_vote_positive_iff hr k hkn
      refine ⟨k, γ, e1, e3.1 ?_⟩
      have : s.weights[k]? = some p.1 := by
        rw [← hget]; simp [hi.wlen, hkn]
      rw [this, Option.some.injEq] at e2
      rw [← e2]; exact hpos
    · rintro ⟨k, γ, h1, h2⟩
      have hkn : k < n := by
        have := (List.getElem?_eq_some_iff.1 h1).1; omega
      obtain ⟨γ', w, e1, e2, e3⟩ := adaboostv_vote_positive_iff hr k hkn
      rw [h1, Option.some.injEq] at e1
      subst e1
      have hw := e3.2 h2
      have hkw : k < s.weights.length := by rw [hi.wlen]; exact hkn
      have hkh : k < s.hypotheses.length := by rw [hi.hlen]; exact hkn
      refine ⟨(s.weights[k], s.hypotheses[k]), List.mem_iff_getElem.2 ⟨k, by simp [hkw, hkh], by simp⟩, ?_⟩
      rw [List.getElem?_eq_getElem hkw, Option.some.injEq] at e2
      simp only [e2]; exact hw
  rw [run_returns_iff _ _ _ _ (adaboostv_terminates S s₀ wl).1]
  constructor
  · rintro ⟨n, qs, s, out, k, f, hr, hb, hf, hp⟩
    have hi := AdaBoostV.inv_of_reachable hr
    have hmax : s.maxIter = adaboostvLimit S s₀ := hi.max
    have hle := hi.le
    refine ⟨n, qs, s, hr, ?_⟩
    by_cases hn : n < adaboostvLimit S s₀
    · left
      refine ⟨hn, ?_⟩
      have h1 := (adaboostv_round_iff S s₀ wl n qs s hr hn).2.1 ⟨out, k, hb, hf⟩
      simp only [AdaBoostV.booster, AdaBoostV.boost, margins_def, innerProduct_eq_zip] at hb
      rw [if_neg (by omega), if_pos h1, Except.ok.injEq] at hb
      subst hb
      have h0 := (signum_vote_ok _ _).1 ⟨f, hp⟩
      rwa [abs_of_nonneg h0] at h1
    · right
      refine ⟨by omega, ?_⟩
      simp only [AdaBoostV.booster, AdaBoostV.boost] at hb
      rw [if_pos (by omega), Except.ok.injEq] at hb
      subst hb
      exact (hlast n qs s hr).1 ⟨f, hp⟩
  · rintro ⟨n, qs, s, hr, ⟨hn, h1⟩ | ⟨hn, h1⟩⟩
    · have hi := AdaBoostV.inv_of_reachable hr
      have hmax : s.maxIter = adaboostvLimit S s₀ := hi.max
      obtain ⟨f, hf⟩ := (signum_vote_ok (Spec.edge S s.dist (conf (wl (n + 1) s.dist))) (wl (n + 1) s.dist)).2 (by linarith)
      refine ⟨n, qs, s, ⟨{ s with terminated := n + 1, weights := [AdaBoost.signum (Spec.edge S s.dist (conf (wl (n + 1) s.dist)))], hypotheses := [wl (n + 1) s.dist] }, .brk (n + 1), [s.dist]⟩, _, f, hr, ?_, rfl, hf⟩
      simp only [AdaBoostV.booster, AdaBoostV.boost, margins_def, innerProduct_eq_zip]
      rw [if_neg (by omega), if_pos (h1.trans (le_abs_self _))]
    · have hi := AdaBoostV.inv_of_reachable hr
      have hmax : s.maxIter = adaboostvLimit S s₀ := hi.max
      obtain ⟨f, hf⟩ := (hlast n qs s hr).2 h1
      refine ⟨n, qs, s, ⟨s, .brk s.maxIter, []⟩, _, f, hr, ?_, rfl, hf⟩
      simp only [AdaBoostV.booster, AdaBoostV.boost]
      rw [if_pos (by omega)]

/-- With a tolerance that is not positive and a weak learner whose answers all have the same edge `γ < 1`, AdaBoostV never returns,
whatever `γ` is. -/
theorem adaboostv_equal_edges_need_tolerance (S : Examples X ℝ) (s₀ : AdaBoostV H) (wl : WeakLearner ℝ H) (γ : ℝ) (hγ : γ < 1)
    (htol : s₀.tolerance ≤ 0)
    (hwl : ∀ n d, d.length = S.length → Spec.IsPosProb d → Spec.edge S d (conf (wl n d)) = γ) (f : WeightedMajority ℝ H)
    (qs : List (List ℝ)) :
    (AdaBoostV.booster S).run wl (adaboostvLimit S s₀ + 1) s₀ ≠ some (.ok (f, qs)) := by
  intro hrun
  have hdist : ∀ n qs s, (AdaBoostV.booster S).Reachable wl s₀ n qs s → Spec.edge S s.dist (conf (wl (n + 1) s.dist)) = γ := by
    intro n qs s hr
    have hi := AdaBoostV.inv_of_reachable hr
    exact hwl _ _ (by rw [hi.dist]; simp [Spec.expWeights]) (by rw [hi.dist]; exact expWeights_posProb S hi.ne _)
  have hedges : ∀ n qs s, (AdaBoostV.booster S).Reachable wl s₀ n qs s → ∀ g ∈ Spec.edges S conf qs s.hypotheses, g = γ := by
    intro n qs s hr
    induction hr with
    | start hp => simp [Spec.edges]
    | @step n qs s₁ out hr hb hf ih =>
      have hi := AdaBoostV.inv_of_reachable hr
      obtain ⟨h1, h2, h2a, h2b, h3, h4⟩ := AdaBoostV.boost_cont hi.ne hi.dist hb hf
      have hql : qs.length = s₁.hypotheses.length := by rw [hi.qlen, hi.hlen]
      rw [h3, h4]
      simp only [edges_append S qs _ hql]
      intro g hg
      rcases List.mem_append.1 hg with h | h
      · exact ih g h
      · rw [List.mem_singleton.1 h]; exact hdist n qs s₁ hr
  obtain ⟨n, qs', s, hr, ⟨-, h⟩ | ⟨-, k, g, hg, h⟩⟩ := (adaboostv_returns_iff_general S s₀ wl).1 ⟨f, qs, hrun⟩
  · rw [hdist n qs' s hr] at h; linarith
  · have hgm := hedges n qs' s hr g (List.mem_of_getElem? hg)
    have hmin : γ ≤ ((Spec.edges S conf qs' s.hypotheses).take (k + 1)).foldr min 1 := by
      have hall : ∀ x ∈ (Spec.edges S conf qs' s.hypotheses).take (k + 1), x = γ :=
        fun x hx => hedges n qs' s hr x (List.mem_of_mem_take hx)
      generalize (Spec.edges S conf qs' s.hypotheses).take (k + 1) = l at hall
      induction l with
      | nil => simpa using hγ.le
      | cons a l ih =>
        rw [List.foldr_cons]
        exact le_min (hall a (by simp)).ge (ih fun x hx => hall x (by simp [hx]))
    rw [hgm] at h
    linarith

/-- The half-confident learner (edge 1/2 under every distribution) is such a learner: with tolerance 0 the run fails, with tolerance
1/2 it returns (see the example after `adaboostv_returns_iff`). -/
example (f : WeightedMajority ℝ (Fn Nat ℝ)) (qs : List (List ℝ)) :
    (AdaBoostV.booster exSample).run exLearner (adaboostvLimit exSample (exBoosterV.setTolerance 0) + 1) (exBoosterV.setTolerance 0)
      ≠ some (.ok (f, qs)) :=
  adaboostv_equal_edges_need_tolerance exSample _ exLearner (1 / 2) (by norm_num) le_rfl
    (fun n d hl hd => exLearner_edge n d hl hd) f qs

end Miniboosts.Props
