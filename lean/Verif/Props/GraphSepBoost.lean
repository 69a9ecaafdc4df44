import Verif.Lemmas.GraphSepBoost
import Verif.Props.AdaBoost

/-! # Properties of graph-separation boosting (C18, C19, C20, C52) -/

namespace Miniboosts.Props

open GraphSepBoost

section field

variable {K : Type*} [Field K] [LinearOrder K] [FloorRing K] [IsStrictOrderedRing K]
  {H X : Type*} [Classifier H X K]

/-- C18: after `n` rounds (any sample, any weak learner) the example numbers kept for example `i` are exactly
those of examples with a different label on which all hypotheses so far agree with it; and the weight vector
handed out next gives example `i` its number of such partners divided by twice the number of unseparated
pairs. -/
theorem graphsep_edges_exact (S : Examples X K) (s₀ : GraphSepBoost H) (wl : WeakLearner K H)
    (n : Nat) (qs : List (List K)) (s : GraphSepBoost H)
    (hr : (GraphSepBoost.booster S).Reachable wl s₀ n qs s) :
    s.hypotheses.length = n ∧
    s.edges = (List.range S.length).map (Spec.neighbours (predict (K := K)) S s.hypotheses) ∧
    (∀ i j, j ∈ Spec.neighbours (predict (K := K)) S s.hypotheses i ↔
      ∃ a b, S[i]? = some a ∧ S[j]? = some b ∧ a.2 ≠ b.2 ∧
        ∀ h ∈ s.hypotheses, predict (K := K) h a.1 = predict (K := K) h b.1) ∧
    ∀ out, (GraphSepBoost.booster S).boost s wl (n + 1) = .ok out → ∀ q ∈ out.queries,
      q = (List.range S.length).map fun i =>
        ((Spec.neighbours (predict (K := K)) S s.hypotheses i).card : K) /
          (2 * (Spec.openPairs (predict (K := K)) S s.hypotheses : K)) := by
  have hi := inv_of_reachable hr
  refine ⟨hi.len, hi.edges, fun i j => mem_neighbours, ?_⟩
  intro out hb q hq
  rw [show (booster S).boost s wl (n + 1) = boost S s wl (n + 1) from rfl, boost_eq hi] at hb
  simp only [] at hb
  split at hb
  · simp only [Except.ok.injEq] at hb; subst hb; simp at hq
  · split at hb <;> (simp only [Except.ok.injEq] at hb; subst hb; simpa [weightsOf] using hq)

/-- A call of `boost` from a reachable state: what it hands out and where it leads. -/
theorem graphsep_step (S : Examples X K) (s₀ : GraphSepBoost H) (wl : WeakLearner K H)
    (n : Nat) (qs : List (List K)) (s : GraphSepBoost H)
    (hr : (GraphSepBoost.booster S).Reachable wl s₀ n qs s) :
    (Spec.openPairs (predict (K := K)) S s.hypotheses = 0 ∧
      (GraphSepBoost.booster S).boost s wl (n + 1) = .ok { state := s, flow := .brk (n + 1), queries := [] }) ∨
    ∃ d out, Spec.openPairs (predict (K := K)) S s.hypotheses ≠ 0 ∧
      (GraphSepBoost.booster S).boost s wl (n + 1) = .ok out ∧ out.queries = [d] ∧
      d.length = S.length ∧ Spec.IsProb d ∧ d = weightsOf S s.hypotheses ∧
      out.state.hypotheses = s.hypotheses ++ [wl (n + 1) d] ∧
      ((Spec.openPairs (predict (K := K)) S out.state.hypotheses : K) ≤
        2 * Spec.weightedError S d (predict (K := K) (wl (n + 1) d)) *
          (Spec.openPairs (predict (K := K)) S s.hypotheses : K)) ∧
      (out.flow = .cont → Spec.openPairs (predict (K := K)) S out.state.hypotheses <
        Spec.openPairs (predict (K := K)) S s.hypotheses) ∧
      (out.flow ≠ .cont → Spec.openPairs (predict (K := K)) S out.state.hypotheses =
        Spec.openPairs (predict (K := K)) S s.hypotheses) := by
  classical
  have hi := inv_of_reachable hr
  rw [show (booster S).boost s wl (n + 1) = boost S s wl (n + 1) from rfl, boost_eq hi]
  simp only []
  by_cases h0 : Spec.openPairs (predict (K := K)) S s.hypotheses = 0
  · left; exact ⟨h0, by rw [if_pos h0]⟩
  right
  rw [if_neg h0]
  set h := wl (n + 1) (weightsOf S s.hypotheses) with hh
  have hmono := openPairs_mono (predict (K := K)) S s.hypotheses h
  have hprob := weightsOf_prob S s.hypotheses h0
  have hbound : (Spec.openPairs (predict (K := K)) S (s.hypotheses ++ [h]) : K) ≤
      2 * Spec.weightedError S (weightsOf S s.hypotheses) (predict (K := K) h) *
        (Spec.openPairs (predict (K := K)) S s.hypotheses : K) := by
    have hpos : (0 : K) < (Spec.openPairs (predict (K := K)) S s.hypotheses : K) := by
      exact_mod_cast Nat.pos_of_ne_zero h0
    rw [weightedError_eq]
    have := openPairs_step S s.hypotheses h
    have hc : (Spec.openPairs (predict (K := K)) S (s.hypotheses ++ [h]) : K) ≤
        ∑ i ∈ Finset.range S.length, if Wrong S (predict (K := K) h) i then
          ((Spec.neighbours (predict (K := K)) S s.hypotheses i).card : K) else 0 := by
      exact_mod_cast this
    have haux : ∀ A N : K, 0 < N → A = 2 * (A / (2 * N)) * N := by
      intro A N hN
      have h2 : (2 : K) * N ≠ 0 := by positivity
      rw [show 2 * (A / (2 * N)) * N = A * ((2 * N) / (2 * N)) by ring, div_self h2, mul_one]
    exact hc.trans (le_of_eq (haux _ _ hpos))
  by_cases h1 : Spec.openPairs (predict (K := K)) S s.hypotheses =
      Spec.openPairs (predict (K := K)) S (s.hypotheses ++ [h])
  · rw [if_pos h1]
    exact ⟨_, _, h0, rfl, rfl, length_weightsOf _ _, hprob, rfl, rfl, hbound, by simp, fun _ => h1.symm⟩
  · rw [if_neg h1]
    exact ⟨_, _, h0, rfl, rfl, length_weightsOf _ _, hprob, rfl, rfl, hbound, fun _ => by simp only []; omega,
      by simp⟩

/-- In every round the weight vector handed to the weak learner is a probability vector with one entry per
example. -/
theorem graphsep_queries_are_distributions (S : Examples X K) (s₀ : GraphSepBoost H) (wl : WeakLearner K H)
    (n : Nat) (qs : List (List K)) (s : GraphSepBoost H)
    (hr : (GraphSepBoost.booster S).Reachable wl s₀ n qs s) (out : BoostOut (GraphSepBoost H) K)
    (hb : (GraphSepBoost.booster S).boost s wl (n + 1) = .ok out) :
    ∀ q ∈ qs ++ out.queries, q.length = S.length ∧ Spec.IsProb q := by
  have hout : ∀ {n qs s} (_ : (GraphSepBoost.booster S).Reachable wl s₀ n qs s) {out}
      (_ : (GraphSepBoost.booster S).boost s wl (n + 1) = .ok out),
      ∀ q ∈ out.queries, q.length = S.length ∧ Spec.IsProb q := by
    intro n qs s hr out hb q hq
    rcases graphsep_step S s₀ wl n qs s hr with ⟨_, h⟩ | ⟨d, out', _, h, h2, h3, h4, _⟩
    · rw [h, Except.ok.injEq] at hb; subst hb; simp at hq
    · rw [h, Except.ok.injEq] at hb; subst hb
      rw [h2, List.mem_singleton] at hq; subst hq; exact ⟨h3, h4⟩
  have hqs : ∀ {n qs s} (_ : (GraphSepBoost.booster S).Reachable wl s₀ n qs s),
      ∀ q ∈ qs, q.length = S.length ∧ Spec.IsProb q := by
    intro n qs s hr
    induction hr with
    | start _ => simp
    | step hr hb hf ih =>
      intro q hq
      rcases List.mem_append.1 hq with h | h
      · exact ih q h
      · exact hout hr hb q h
  intro q hq
  rcases List.mem_append.1 hq with h | h
  · exact hqs hr q h
  · exact hout hr hb q h

/-- Progress: a round whose hypothesis has weighted error `ε` leaves at most `2ε` times the unseparated pairs. -/
theorem graphsep_progress (S : Examples X K) (s₀ : GraphSepBoost H) (wl : WeakLearner K H)
    (n : Nat) (qs : List (List K)) (s : GraphSepBoost H)
    (hr : (GraphSepBoost.booster S).Reachable wl s₀ n qs s) (out : BoostOut (GraphSepBoost H) K)
    (hb : (GraphSepBoost.booster S).boost s wl (n + 1) = .ok out) (d : List K) (hd : out.queries = [d]) :
    (Spec.openPairs (predict (K := K)) S out.state.hypotheses : K) ≤
      2 * Spec.weightedError S d (predict (K := K) (wl (n + 1) d)) *
        (Spec.openPairs (predict (K := K)) S s.hypotheses : K) := by
  rcases graphsep_step S s₀ wl n qs s hr with ⟨_, h⟩ | ⟨d', out', _, h, h2, _, _, _, _, h6, _⟩
  · rw [h, Except.ok.injEq] at hb; subst hb; simp at hd
  · rw [h, Except.ok.injEq] at hb; subst hb
    rw [h2, List.cons.injEq] at hd; obtain ⟨rfl, _⟩ := hd; exact h6

theorem graphsep_remaining (S : Examples X K) (s₀ : GraphSepBoost H) (wl : WeakLearner K H)
    {n : Nat} {qs : List (List K)} {s : GraphSepBoost H}
    (hr : (GraphSepBoost.booster S).Reachable wl s₀ n qs s) :
    Spec.openPairs (predict (K := K)) S s.hypotheses + n ≤ Spec.openPairs (predict (K := K)) S ([] : List H) ∧
    qs.length = n := by
  induction hr with
  | start hp =>
    have h1 := (inv_of_reachable (Booster.Reachable.start hp)).len
    rw [List.length_eq_zero_iff] at h1
    simp [h1]
  | @step n qs s₁ out hr hb hf ih =>
    rcases graphsep_step S s₀ wl _ _ _ hr with ⟨_, h⟩ | ⟨d', out', _, h, h2, _, _, _, _, _, h7, _⟩
    · rw [h, Except.ok.injEq] at hb; subst hb; simp at hf
    · rw [h, Except.ok.injEq] at hb; subst hb
      have := h7 hf
      rw [h2]
      simp only [List.length_append, List.length_singleton]
      omega

/-- C20: GraphSepBoost stops, whatever the weak learner does: `boost` is called at most
(number of pairs with different labels) + 1 times, and the weak learner at most once per pair. -/
theorem graphsep_terminates (S : Examples X K) (s₀ : GraphSepBoost H) (wl : WeakLearner K H) :
    (∃ r, (GraphSepBoost.booster S).run wl
      (Spec.openPairs (predict (K := K)) S ([] : List H) + 1) s₀ = some r) ∧
    ∀ fuel f qs, (GraphSepBoost.booster S).run wl fuel s₀ = some (.ok (f, qs)) →
      qs.length ≤ Spec.openPairs (predict (K := K)) S ([] : List H) := by
  constructor
  · apply Booster.run_terminates
    intro qs s out hr hb hf
    have h1 := (graphsep_remaining S s₀ wl hr).1
    rcases graphsep_step S s₀ wl _ _ _ hr with ⟨_, h⟩ | ⟨_, _, h0, _⟩
    · rw [h, Except.ok.injEq] at hb; subst hb; simp at hf
    · omega
  · intro fuel f qs hrun
    obtain ⟨n, qs', s, out, k, hr, _, hb, hf, hq, _⟩ := Booster.run_spec _ wl s₀ hrun
    obtain ⟨h1, h2⟩ := graphsep_remaining S s₀ wl hr
    subst hq
    rcases graphsep_step S s₀ wl _ _ _ hr with ⟨_, h⟩ | ⟨_, out', h0, h, h3, _⟩
    · rw [h, Except.ok.injEq] at hb; subst hb; simp; omega
    · rw [h, Except.ok.injEq] at hb; subst hb
      rw [h3]; simp only [List.length_append, List.length_singleton]; omega

/-- The aggregate of the hypotheses `hs` makes no mistake on a sample with labels `±1` exactly when every
pair of examples with different labels has been separated. -/
theorem naiveAggregation_consistent_iff (S : Examples X K) (hpm : Spec.PmLabels S) (hs : List H) :
    Spec.errors S (predict (K := K) (NaiveAggregation.new hs S)) = 0 ↔
      Spec.openPairs (predict (K := K)) S hs = 0 := by
  rw [openPairs_eq_zero]
  unfold Spec.errors
  rw [List.countP_eq_zero]
  have hagg := fun x => naiveAggregation_predict (K := K) hs S x
  simp only [] at hagg
  constructor
  · rintro h i j ⟨a, b, ha, hb, hne, hall⟩
    have hma := List.mem_of_getElem? ha
    have hmb := List.mem_of_getElem? hb
    have pa := h a hma
    have pb := h b hmb
    simp only [ne_eq, decide_not, Bool.not_eq_eq_eq_not, Bool.not_true, decide_eq_false_iff_not, not_not] at pa pb
    have hsame : ∀ x y : X, (∀ h ∈ hs, predict (K := K) h x = predict (K := K) h y) →
        predict (K := K) (NaiveAggregation.new hs S) x = 1 →
        predict (K := K) (NaiveAggregation.new hs S) y = 1 := by
      intro x y hxy hx
      obtain ⟨e, he, hpos, hall⟩ := ((hagg x).1).1 hx
      exact ((hagg y).1).2 ⟨e, he, hpos, fun g hg => (hall g hg).trans (hxy g hg)⟩
    apply hne
    rw [pa, pb]
    rcases (hagg a.1).2.1 with ha1 | ha1
    · rw [ha1, hsame a.1 b.1 hall ha1]
    · rcases (hagg b.1).2.1 with hb1 | hb1
      · have := hsame b.1 a.1 (fun g hg => (hall g hg).symm) hb1
        rw [this] at ha1; simp at ha1
      · rw [ha1, hb1]
  · intro h e he
    simp only [ne_eq, decide_not, Bool.not_eq_eq_eq_not, Bool.not_true, decide_eq_false_iff_not, not_not]
    rcases hpm e he with hy | hy
    · rw [naiveAggregation_training_positive hs S e he (by rw [hy]; exact one_pos), hy]; simp
    · rcases (hagg e.1).2.1 with h1 | h1
      · exfalso
        obtain ⟨e', he', hpos, hall⟩ := ((hagg e.1).1).1 h1
        obtain ⟨i, hi⟩ := List.mem_iff_getElem?.1 he'
        obtain ⟨j, hj⟩ := List.mem_iff_getElem?.1 he
        refine h i j ⟨e', e, hi, hj, ?_, hall⟩
        intro heq; rw [heq, hy] at hpos
        linarith [one_pos (α := K)]
      · rw [h1, hy]; simp

/-- C19: when a run ends, either the returned aggregate classifies every training example correctly, or the
hypothesis returned for the last weight vector had weighted error at least one half (the weak-learning
assumption was violated); it is the aggregate of the hypotheses returned for the weight vectors handed out. -/
theorem graphsep_consistent (S : Examples X K) (hpm : Spec.PmLabels S) (s₀ : GraphSepBoost H)
    (wl : WeakLearner K H) (fuel : Nat) (f : NaiveAggregation H) (qs : List (List K))
    (hrun : (GraphSepBoost.booster S).run wl fuel s₀ = some (.ok (f, qs))) :
    f = NaiveAggregation.new (qs.zipIdx.map fun p => wl (p.2 + 1) p.1) S ∧
    (Spec.errors S (predict (K := K) f) = 0 ∨
      ∃ d, qs.getLast? = some d ∧
        1 / 2 ≤ Spec.weightedError S d (predict (K := K) (wl qs.length d))) := by
  obtain ⟨n, qs', s, out, k, hr, _, hb, hf, hq, hpost⟩ := Booster.run_spec _ wl s₀ hrun
  have hhyp : ∀ {n qs s}, (GraphSepBoost.booster S).Reachable wl s₀ n qs s →
      s.hypotheses = qs.zipIdx.map fun p => wl (p.2 + 1) p.1 := by
    intro n qs s hr
    induction hr with
    | start hp =>
      have h1 := (inv_of_reachable (Booster.Reachable.start hp)).len
      rw [List.length_eq_zero_iff] at h1
      simp [h1]
    | @step n qs s₁ out hr hb hf ih =>
      have hlen := (graphsep_remaining S s₀ wl hr).2
      rcases graphsep_step S s₀ wl _ _ _ hr with ⟨_, h⟩ | ⟨d', out', _, h, h2, _, _, _, h5, _⟩
      · rw [h, Except.ok.injEq] at hb; subst hb; simp at hf
      · rw [h, Except.ok.injEq] at hb; subst hb
        rw [h5, h2, ih, List.zipIdx_append, List.map_append]
        simp [hlen]
  have hlen := (graphsep_remaining S s₀ wl hr).2
  simp only [booster, postprocess, Except.ok.injEq] at hpost
  rcases graphsep_step S s₀ wl _ _ _ hr with ⟨h0, h⟩ | ⟨d, out', h0, h, h2, _, _, _, h5, h6, _, h8⟩
  · rw [show (GraphSepBoost.booster S).boost s wl (n + 1) = .ok out from hb, Except.ok.injEq] at h
    subst h
    simp only [List.append_nil] at hq
    subst hq
    refine ⟨by rw [← hpost, hhyp hr], .inl ?_⟩
    rw [← hpost, naiveAggregation_consistent_iff S hpm]; exact h0
  · rw [h, Except.ok.injEq] at hb
    subst hb
    rw [h2] at hq
    subst hq
    refine ⟨?_, .inr ⟨d, by simp, ?_⟩⟩
    · rw [← hpost, h5, hhyp hr, List.zipIdx_append, List.map_append]; simp [hlen]
    · rw [h8 (by rw [hf]; simp)] at h6
      have hpos : (0 : K) < (Spec.openPairs (predict (K := K)) S s.hypotheses : K) := by
        exact_mod_cast Nat.pos_of_ne_zero h0
      simp only [List.length_append, List.length_singleton, hlen]
      by_contra hc
      push Not at hc
      nlinarith

/-- C19/C20 end to end: if every hypothesis the weak learner returns has weighted error below one half, the run
finishes and the returned aggregate classifies every training example correctly. -/
theorem graphsep_run_zero_error (S : Examples X K) (hvalid : checkBinary S = .ok ())
    (hpm : Spec.PmLabels S) (s₀ : GraphSepBoost H) (wl : WeakLearner K H)
    (hwl : ∀ k d, d.length = S.length → Spec.IsProb d →
      Spec.weightedError S d (predict (K := K) (wl k d)) < 1 / 2) :
    ∃ f qs, (GraphSepBoost.booster S).run wl
        (Spec.openPairs (predict (K := K)) S ([] : List H) + 1) s₀ = some (.ok (f, qs)) ∧
      Spec.errors S (predict (K := K) f) = 0 := by
  obtain ⟨r, hr⟩ := (graphsep_terminates S s₀ wl).1
  have herr : ∀ e, r ≠ .error e := by
    rintro e rfl
    unfold Booster.run at hr
    have hp : ∃ s, (GraphSepBoost.booster S).preprocess s₀ wl = .ok s := by
      simp only [booster, preprocess, hvalid]; exact ⟨_, rfl⟩
    obtain ⟨s, hp⟩ := hp
    rw [hp] at hr
    simp only [] at hr
    cases hl : (GraphSepBoost.booster S).loop wl (Spec.openPairs (predict (K := K)) S ([] : List H) + 1) s 1 with
    | none => rw [hl] at hr; simp at hr
    | some q =>
      rcases Booster.loop_spec _ wl s₀ (Booster.Reachable.start hp) hl with
        ⟨n', qs', s', h1, h2, e, h3, h4⟩ | ⟨n', qs', s', out', k, h1, h2, h3, h4, qs'', h5, h6⟩
      · rcases graphsep_step S s₀ wl _ _ _ h1 with ⟨_, h⟩ | ⟨_, _, _, h, _⟩ <;> rw [h] at h3 <;> simp at h3
      · rw [hl, h6] at hr
        simp [booster, postprocess] at hr
  cases r with
  | error e => exact absurd rfl (herr e)
  | ok p =>
    obtain ⟨f, qs⟩ := p
    refine ⟨f, qs, hr, ?_⟩
    rcases (graphsep_consistent S hpm s₀ wl _ f qs hr).2 with h | ⟨d, hd, hle⟩
    · exact h
    · exfalso
      obtain ⟨n, qs', s, out, k, hreach, _, hb, hf, hq, hpost⟩ := Booster.run_spec _ wl s₀ hr
      have := graphsep_queries_are_distributions S s₀ wl n qs' s hreach out hb d
        (by rw [← hq]; exact List.mem_of_getLast? hd)
      linarith [hwl qs.length d this.1 this.2]

/-- C52 for GraphSepBoost: the result of `run` does not depend on the state the object is in. -/
theorem graphsep_run_history_independent (S : Examples X K) (s t : GraphSepBoost H)
    (wl : WeakLearner K H) (fuel : Nat) :
    (GraphSepBoost.booster S).run wl fuel s = (GraphSepBoost.booster S).run wl fuel t := rfl

end field

section real

open Real

variable {H X : Type*} [Classifier H X ℝ]

/-- Rate: with weighted errors at most `1/2 - g`, after `n` continuing rounds at most
`exp(-2 g n)` times the initial pairs are left. -/
theorem graphsep_rate (S : Examples X ℝ) (s₀ : GraphSepBoost H) (wl : WeakLearner ℝ H) (g : ℝ)
    (hwl : ∀ k d, d.length = S.length → Spec.IsProb d →
      Spec.weightedError S d (predict (K := ℝ) (wl k d)) ≤ 1 / 2 - g)
    (n : Nat) (qs : List (List ℝ)) (s : GraphSepBoost H)
    (hr : (GraphSepBoost.booster S).Reachable wl s₀ n qs s) :
    (Spec.openPairs (predict (K := ℝ)) S s.hypotheses : ℝ) ≤
      exp (-(2 * g * n)) * Spec.openPairs (predict (K := ℝ)) S ([] : List H) := by
  induction hr with
  | start hp =>
    have h1 := (inv_of_reachable (Booster.Reachable.start hp)).len
    rw [List.length_eq_zero_iff] at h1
    simp [h1]
  | @step n qs s₁ out hr hb hf ih =>
    rcases graphsep_step S s₀ wl _ _ _ hr with ⟨_, h⟩ | ⟨d', out', _, h, h2, h3, h4, _, h5, h6, _⟩
    · rw [h, Except.ok.injEq] at hb; subst hb; simp at hf
    · rw [h, Except.ok.injEq] at hb; subst hb
      have hw := hwl (n + 1) d' h3 h4
      have hN : (0 : ℝ) ≤ Spec.openPairs (predict (K := ℝ)) S s₁.hypotheses := Nat.cast_nonneg _
      have he : 1 - 2 * g ≤ exp (-(2 * g)) := by
        have := add_one_le_exp (-(2 * g)); linarith
      calc (Spec.openPairs (predict (K := ℝ)) S out'.state.hypotheses : ℝ)
          ≤ 2 * Spec.weightedError S d' (predict (K := ℝ) (wl (n + 1) d')) *
              Spec.openPairs (predict (K := ℝ)) S s₁.hypotheses := h6
        _ ≤ exp (-(2 * g)) * Spec.openPairs (predict (K := ℝ)) S s₁.hypotheses := by
            apply mul_le_mul_of_nonneg_right _ hN; linarith
        _ ≤ exp (-(2 * g)) * (exp (-(2 * g * n)) * Spec.openPairs (predict (K := ℝ)) S ([] : List H)) :=
            mul_le_mul_of_nonneg_left ih (exp_pos _).le
        _ = _ := by
            rw [← mul_assoc, ← exp_add]; congr 2; push_cast; ring

/-- C20, the logarithmic bound: with weighted errors at most `1/2 - g` and `P` pairs of examples with
different labels, the weak learner is called at most `ln(P)/(2g) + 1` times. -/
theorem graphsep_calls (S : Examples X ℝ) (s₀ : GraphSepBoost H) (wl : WeakLearner ℝ H) (g : ℝ)
    (hg : 0 < g) (hwl : ∀ k d, d.length = S.length → Spec.IsProb d →
      Spec.weightedError S d (predict (K := ℝ) (wl k d)) ≤ 1 / 2 - g)
    (fuel : Nat) (f : NaiveAggregation H) (qs : List (List ℝ))
    (hrun : (GraphSepBoost.booster S).run wl fuel s₀ = some (.ok (f, qs))) :
    qs = [] ∨ (qs.length : ℝ) ≤ log (Spec.openPairs (predict (K := ℝ)) S ([] : List H)) / (2 * g) + 1 := by
  have key : ∀ {n qs s}, (GraphSepBoost.booster S).Reachable wl s₀ n qs s →
      Spec.openPairs (predict (K := ℝ)) S s.hypotheses ≠ 0 →
      (n : ℝ) ≤ log (Spec.openPairs (predict (K := ℝ)) S ([] : List H)) / (2 * g) := by
    intro n qs s hr h0
    have h1 : (1 : ℝ) ≤ Spec.openPairs (predict (K := ℝ)) S s.hypotheses := by
      exact_mod_cast Nat.pos_of_ne_zero h0
    have h2 := graphsep_rate S s₀ wl g hwl n qs s hr
    have h3 : exp (2 * g * n) ≤ Spec.openPairs (predict (K := ℝ)) S ([] : List H) := by
      have := mul_le_mul_of_nonneg_left (h1.trans h2) (exp_pos (2 * g * n)).le
      rwa [mul_one, ← mul_assoc, ← exp_add, add_neg_cancel, exp_zero, one_mul] at this
    rw [le_div_iff₀ (by linarith)]
    have := log_le_log (exp_pos _) h3
    rw [log_exp] at this
    linarith
  obtain ⟨n, qs', s, out, k, hr, _, hb, hf, hq, _⟩ := Booster.run_spec _ wl s₀ hrun
  have hlen := (graphsep_remaining S s₀ wl hr).2
  rcases graphsep_step S s₀ wl _ _ _ hr with ⟨_, h⟩ | ⟨_, out', h0, h, h3, _⟩
  · rw [h, Except.ok.injEq] at hb; subst hb
    simp only [List.append_nil] at hq
    subst hq
    cases hr with
    | start hp => exact .inl rfl
    | @step n qs s₁ out hr1 hb1 hf1 =>
      right
      rcases graphsep_step S s₀ wl _ _ _ hr1 with ⟨_, h⟩ | ⟨_, out', h0, _⟩
      · rw [h, Except.ok.injEq] at hb1; subst hb1; simp at hf1
      · have := key hr1 h0
        rw [hlen]; push_cast; linarith
  · rw [h, Except.ok.injEq] at hb; subst hb
    right
    have := key hr h0
    rw [hq, h3]
    simp only [List.length_append, List.length_singleton, hlen]
    push_cast; linarith

end real

section nonvacuity

/-- Four examples of a threshold function. -/
def exGraph : Examples Nat ℚ := [(0, 1), (1, -1), (2, 1), (3, -1)]

/-- A learner that guesses single examples, never perfect. -/
def exGraphLearner : WeakLearner ℚ (Fn Nat ℚ) :=
  fun k _ => ⟨fun x => if x + 1 = k then 1 else -1⟩

theorem exGraph_valid : checkBinary exGraph = .ok () := by decide +kernel

/-- A concrete run of several rounds that ends with a consistent aggregate. -/
example : ((GraphSepBoost.booster exGraph).run exGraphLearner 10 GraphSepBoost.init).map
      (fun r => r.toOption.map fun p => (p.2.length, p.2.head?, Spec.errors exGraph (predict (K := ℚ) p.1))) =
    some (some (3, some [1 / 4, 1 / 4, 1 / 4, 1 / 4], 0)) := by decide +kernel

/-- The perfect learner meets the hypothesis of `graphsep_run_zero_error`. -/
example : ∃ f qs, (GraphSepBoost.booster exGraph).run (fun _ _ => (⟨fun x => if x % 2 = 0 then 1 else -1⟩ : Fn Nat ℚ))
      (Spec.openPairs (predict (K := ℚ)) exGraph ([] : List (Fn Nat ℚ)) + 1) GraphSepBoost.init = some (.ok (f, qs)) ∧
    Spec.errors exGraph (predict (K := ℚ) f) = 0 := by
  apply graphsep_run_zero_error exGraph exGraph_valid
  · intro e he; simp [exGraph] at he; rcases he with rfl | rfl | rfl | rfl <;> simp
  · intro k d hl hd
    have : Spec.weightedError exGraph d (predict (K := ℚ) (⟨fun x => if x % 2 = 0 then 1 else -1⟩ : Fn Nat ℚ)) = 0 := by
      match d, hl with
      | [a, b, c, e], _ =>
        simp [Spec.weightedError, exGraph, predict, conf]
    rw [this]; norm_num

end nonvacuity

end Miniboosts.Props
