import Verif.Props.GBM

/-! # Properties of the gradient boosting loop (C22, C52, C61, C65) -/

namespace Miniboosts.Props

variable {K : Type*} [Field K] [LinearOrder K] [IsStrictOrderedRing K] {H X : Type*} [Regressor H X K]

/-- `Fitted best S wl wh`: the list `wh` of (coefficient, predictor) pairs is a history of gradient boosting:
the `i`-th predictor is the weak learner's answer to the values the earlier pairs add up to, its coefficient
is the line search's answer for it, and is not zero. -/
def Fitted (best : List K → List K → Except Panic K) (S : Examples X K) (wl : WeakLearner K H)
    (wh : List (K × H)) : Prop :=
  ∀ (i : Nat) (w : K) (g : H), wh[i]? = some (w, g) →
    g = wl (i + 1) (S.map fun e => Spec.vote Regressor.pred (wh.take i) e.1) ∧
    best (S.map Prod.snd) (S.map fun e => Regressor.pred g e.1) = .ok w ∧ w ≠ 0

structure GBMInv (best : List K → List K → Except Panic K) (S : Examples X K) (s₀ : GBM K H)
    (wl : WeakLearner K H) (n : Nat) (qs : List (List K)) (s : GBM K H) : Prop where
  wlen : s.weights.length = n
  hlen : s.hypotheses.length = n
  qlen : qs.length = n
  le : n ≤ s₀.maxIter
  max : s.maxIter = s₀.maxIter
  pred : s.predictions = S.map fun e => Spec.vote Regressor.pred (List.zip s.weights s.hypotheses) e.1
  fit : Fitted best S wl (List.zip s.weights s.hypotheses)
  q : ∀ i q, qs[i]? = some q →
    q = S.map fun e => Spec.vote Regressor.pred ((List.zip s.weights s.hypotheses).take i) e.1

theorem gbm_inv {best : List K → List K → Except Panic K} {S : Examples X K} {s₀ : GBM K H}
    {wl : WeakLearner K H} {n : Nat} {qs : List (List K)} {s : GBM K H}
    (hr : (GBM.booster best S).Reachable wl s₀ n qs s) : GBMInv best S s₀ wl n qs s := by
  induction hr with
  | start hp =>
    simp only [GBM.booster, GBM.preprocess, Except.ok.injEq] at hp
    subst hp
    refine ⟨rfl, rfl, rfl, Nat.zero_le _, rfl, ?_, ?_, ?_⟩
    · induction S with
      | nil => rfl
      | cons e S ih => simp [List.replicate_succ, Spec.vote]
    · intro i w g h; simp at h
    · intro i q h; simp at h
  | step hr hb hf ih =>
    rename_i m qs s out
    simp only [GBM.booster, GBM.boost] at hb
    by_cases h1 : s.maxIter < m + 1
    · rw [if_pos h1, Except.ok.injEq] at hb; subst hb; simp at hf
    rw [if_neg h1] at hb
    set h := wl (m + 1) s.predictions with hh
    cases hc : best (S.map Prod.snd) (GBM.regressAll h (S.map Prod.fst)) with
    | error e => simp [hc] at hb
    | ok coef =>
      simp only [hc] at hb
      by_cases h0 : coef = 0
      · rw [if_pos h0, Except.ok.injEq] at hb; subst hb; simp at hf
      rw [if_neg h0, Except.ok.injEq] at hb
      subst hb
      have hlen : s.weights.length = s.hypotheses.length := by rw [ih.wlen, ih.hlen]
      have hz : List.zip (s.weights ++ [coef]) (s.hypotheses ++ [h]) =
          List.zip s.weights s.hypotheses ++ [(coef, h)] := by
        rw [List.zip_append hlen]; rfl
      have hzl : (List.zip s.weights s.hypotheses).length = m := by
        rw [List.length_zip, ih.wlen, ih.hlen, min_self]
      have hmax := ih.max
      refine ⟨by simp [ih.wlen], by simp [ih.hlen], by simp [ih.qlen], by omega, ih.max, ?_, ?_, ?_⟩
      · simp only [hz]
        rw [ih.pred]
        unfold GBM.regressAll
        rw [List.map_map, updateZip_map_map]
        apply List.map_congr_left
        intro e _
        simp [Spec.vote]
      · intro i w g hi
        simp only [hz] at hi ⊢
        rw [List.getElem?_append] at hi
        by_cases him : i < (List.zip s.weights s.hypotheses).length
        · rw [if_pos him] at hi
          rw [List.take_append_of_le_length him.le]
          exact ih.fit i w g hi
        · rw [if_neg him] at hi
          have : i - (List.zip s.weights s.hypotheses).length = 0 := by
            by_contra hne
            rw [List.getElem?_eq_none (by rw [List.length_singleton]; omega)] at hi
            simp at hi
          have him' : i = m := by omega
          rw [this] at hi
          simp only [List.getElem?_cons_zero, Option.some.injEq, Prod.mk.injEq] at hi
          obtain ⟨rfl, rfl⟩ := hi
          refine ⟨?_, ?_, h0⟩
          · rw [List.take_append_of_le_length (by omega), List.take_of_length_le (by omega), him', hh, ih.pred]
          · rw [← hc]; unfold GBM.regressAll; rw [List.map_map]; rfl
      · intro i q hi
        simp only [hz]
        rw [List.getElem?_append] at hi
        by_cases him : i < qs.length
        · rw [if_pos him] at hi
          rw [List.take_append_of_le_length (by rw [hzl, ← ih.qlen]; exact him.le)]
          exact ih.q i q hi
        · rw [if_neg him] at hi
          have h0 : i - qs.length = 0 := by
            by_contra hne
            rw [List.getElem?_eq_none (by simp; omega)] at hi
            simp at hi
          have him' : i = m := by have := ih.qlen; omega
          rw [h0] at hi
          simp only [List.getElem?_cons_zero, Option.some.injEq] at hi
          rw [List.take_append_of_le_length (by omega), List.take_of_length_le (by omega), ← hi, ih.pred]

/-- C65: the weak learner is always handed, for every training row, exactly the value the predictors produced
so far add up to (in production order, with their coefficients), and every coefficient is the line search's
answer for its predictor. -/
theorem gbm_accumulates (best : List K → List K → Except Panic K) (S : Examples X K) (s₀ : GBM K H)
    (wl : WeakLearner K H) (n : Nat) (qs : List (List K)) (s : GBM K H)
    (hr : (GBM.booster best S).Reachable wl s₀ n qs s) :
    (List.zip s.weights s.hypotheses).length = n ∧
    Fitted best S wl (List.zip s.weights s.hypotheses) ∧
    s.predictions = S.map (fun e => Spec.vote Regressor.pred (List.zip s.weights s.hypotheses) e.1) ∧
    ∀ i q, qs[i]? = some q →
      q = S.map fun e => Spec.vote Regressor.pred ((List.zip s.weights s.hypotheses).take i) e.1 := by
  have h := gbm_inv hr
  exact ⟨by rw [List.length_zip, h.wlen, h.hlen, min_self], h.fit, h.pred, h.q⟩

/-- C65: a run ends after at most `maxIter + 1` calls of `boost` and `maxIter` weak-learner calls; `boost`
panics exactly when the line search panics. -/
theorem gbm_terminates (best : List K → List K → Except Panic K) (S : Examples X K) (s₀ : GBM K H)
    (wl : WeakLearner K H) :
    (∃ r, (GBM.booster best S).run wl (s₀.maxIter + 1) s₀ = some r) ∧
    (∀ n qs s, (GBM.booster best S).Reachable wl s₀ n qs s → n ≤ s₀.maxIter ∧ qs.length = n) ∧
    (∀ n qs s out, (GBM.booster best S).Reachable wl s₀ n qs s →
      (GBM.booster best S).boost s wl (n + 1) = .ok out → (qs ++ out.queries).length ≤ s₀.maxIter) := by
  refine ⟨?_, fun n qs s hr => ⟨(gbm_inv hr).le, (gbm_inv hr).qlen⟩, ?_⟩
  · apply Booster.run_terminates
    intro qs s₁ out hr hb hf
    have := (gbm_inv (Booster.Reachable.step hr hb hf)).le
    omega
  · intro n qs s out hr hb
    have hi := gbm_inv hr
    simp only [GBM.booster, GBM.boost] at hb
    have hmax := hi.max
    have hle := hi.le
    by_cases h1 : s.maxIter < n + 1
    · rw [if_pos h1, Except.ok.injEq] at hb; subst hb; simp [hi.qlen, hle]
    rw [if_neg h1] at hb
    cases hc : best (S.map Prod.snd) (GBM.regressAll (wl (n + 1) s.predictions) (S.map Prod.fst)) with
    | error e => simp [hc] at hb
    | ok coef =>
      simp only [hc] at hb
      by_cases h0 : coef = 0
      · rw [if_pos h0, Except.ok.injEq] at hb; subst hb; simp [hi.qlen]; omega
      · rw [if_neg h0, Except.ok.injEq] at hb; subst hb; simp [hi.qlen]; omega

/-- C52 for GBM: the outcome of a run depends on the object only through its iteration limit (which no setter
changes); nothing an earlier run left behind matters. -/
theorem gbm_run_history_independent (best : List K → List K → Except Panic K) (S : Examples X K)
    (s t : GBM K H) (hm : s.maxIter = t.maxIter) (wl : WeakLearner K H) (fuel : Nat) :
    (GBM.booster best S).run wl fuel s = (GBM.booster best S).run wl fuel t := by
  apply Booster.run_congr (GBM.booster best S) wl
    (fun a b => a.weights = b.weights ∧ a.hypotheses = b.hypotheses ∧ a.maxIter = b.maxIter ∧
      a.predictions = b.predictions)
  · rintro a b it ⟨h1, h2, h3, h4⟩
    simp only [GBM.booster, GBM.boost, h1, h2, h3, h4]
    split
    · exact .inr ⟨_, _, rfl, rfl, rfl, rfl, h1, h2, h3, h4⟩
    · cases best (S.map Prod.snd) (GBM.regressAll (wl it b.predictions) (S.map Prod.fst)) with
      | error e => exact .inl ⟨e, rfl, rfl⟩
      | ok c =>
        simp only []
        split
        · exact .inr ⟨_, _, rfl, rfl, rfl, rfl, rfl, rfl, rfl, rfl⟩
        · exact .inr ⟨_, _, rfl, rfl, rfl, rfl, rfl, rfl, rfl, rfl⟩
  · rintro a b ⟨h1, h2, h3, h4⟩
    simp only [GBM.booster, GBM.postprocess, h1, h2]
  · exact .inr ⟨_, _, rfl, rfl, rfl, rfl, hm, rfl⟩

/-- A fresh machine stops after at most 100 rounds, whatever tolerance the caller asks for: the setter
`tolerance` has no effect on the run. -/
theorem gbm_tolerance_ignored (best : List K → List K → Except Panic K) (S : Examples X K) (tol : K)
    (wl : WeakLearner K H) (fuel : Nat) :
    (GBM.booster best S).run wl fuel ((GBM.init S).setTolerance tol) =
      (GBM.booster best S).run wl fuel (GBM.init S) ∧
    (GBM.setTolerance (GBM.init S : GBM K H) tol).maxIter = 100 :=
  ⟨gbm_run_history_independent best S ((GBM.init S).setTolerance tol) (GBM.init S) rfl wl fuel, rfl⟩

/-- What a finished run returns: there is a fitted history such that the returned predictor's value at every
point is the sum over the pairs with a POSITIVE coefficient, DIVIDED by the sum of these coefficients. -/
theorem gbm_output (best : List K → List K → Except Panic K) (S : Examples X K) (s₀ : GBM K H)
    (wl : WeakLearner K H) (fuel : Nat) (f : WeightedMajority K H) (qs : List (List K))
    (h : (GBM.booster best S).run wl fuel s₀ = some (.ok (f, qs))) :
    ∃ wh : List (K × H), wh.length ≤ s₀.maxIter ∧ Fitted best S wl wh ∧
      let kept := wh.filter fun p => decide (0 < p.1)
      0 < (kept.map Prod.fst).sum ∧
      ∀ x : X, Regressor.pred f x = Spec.vote Regressor.pred kept x / (kept.map Prod.fst).sum := by
  obtain ⟨n, qs', s, out, k, hr, -, hb, hf, -, hp⟩ := Booster.run_spec _ _ _ h
  have hi := gbm_inv hr
  have hst : out.state.weights = s.weights ∧ out.state.hypotheses = s.hypotheses := by
    simp only [GBM.booster, GBM.boost] at hb
    by_cases h1 : s.maxIter < n + 1
    · rw [if_pos h1, Except.ok.injEq] at hb; subst hb; exact ⟨rfl, rfl⟩
    rw [if_neg h1] at hb
    cases hc : best (S.map Prod.snd) (GBM.regressAll (wl (n + 1) s.predictions) (S.map Prod.fst)) with
    | error e => simp [hc] at hb
    | ok coef =>
      simp only [hc] at hb
      by_cases h0 : coef = 0
      · rw [if_pos h0, Except.ok.injEq] at hb; subst hb; exact ⟨rfl, rfl⟩
      · rw [if_neg h0, Except.ok.injEq] at hb; subst hb; simp at hf
  have hp' : WeightedMajority.fromSlices s.weights s.hypotheses = .ok f := by
    rw [← hst.1, ← hst.2]; exact hp
  refine ⟨List.zip s.weights s.hypotheses, ?_, hi.fit, ?_⟩
  · rw [List.length_zip, hi.wlen, hi.hlen, min_self]; exact hi.le
  · let _ : Classifier H X K := ⟨Regressor.pred⟩
    rcases fromSlices_cases s.weights s.hypotheses with ⟨h1, h2⟩ | ⟨h1, h2⟩
    · rw [h2] at hp'; simp at hp'
    · constructor
      · apply sum_pos'
        · simpa using h1
        · intro x hx
          obtain ⟨p, hp, rfl⟩ := List.mem_map.1 hx
          simpa using (List.mem_filter.1 hp).2
      · intro x
        exact (fromSlices_conf (X := X) hp' x).1

/-- The part of C22 that holds: when every coefficient is positive, the returned predictor is the accumulated
model divided by the sum of the coefficients.  Missing: the division -- the returned model is the accumulated
one only if the coefficients sum to one (`gbm_output_not_accumulated` refutes the full claim). -/
theorem gbm_output_partial (best : List K → List K → Except Panic K) (S : Examples X K) (s₀ : GBM K H)
    (wl : WeakLearner K H) (fuel : Nat) (f : WeightedMajority K H) (qs : List (List K))
    (h : (GBM.booster best S).run wl fuel s₀ = some (.ok (f, qs)))
    (hpos : ∀ p w, best (S.map Prod.snd) p = .ok w → 0 ≤ w) :
    ∃ wh : List (K × H), wh.length ≤ s₀.maxIter ∧ Fitted best S wl wh ∧
      ∀ x : X, Regressor.pred f x * (wh.map Prod.fst).sum = Spec.vote Regressor.pred wh x := by
  obtain ⟨wh, h1, h2, h3, h4⟩ := gbm_output best S s₀ wl fuel f qs h
  have hk : wh.filter (fun p => decide (0 < p.1)) = wh := by
    rw [List.filter_eq_self]
    rintro ⟨w, g⟩ hp
    obtain ⟨i, hi⟩ := List.mem_iff_getElem?.1 hp
    obtain ⟨-, hb, h0⟩ := h2 i w g hi
    simpa using lt_of_le_of_ne (hpos _ _ hb) (Ne.symm h0)
  rw [hk] at h3 h4
  refine ⟨wh, h1, h2, fun x => ?_⟩
  rw [h4 x, div_mul_cancel₀ _ h3.ne']

/-- A regressor given by a function. -/
structure RFn (X K : Type*) where
  f : X → K

instance : Regressor (RFn X K) X K := ⟨RFn.f⟩

/-- C22 is false of the code: with targets 2 and 6 and a learner whose predictor outputs half of the target,
the squared-loss line search correctly answers 2, so one round fits the targets exactly; but the returned
predictor outputs 1 and 3. -/
theorem gbm_output_not_accumulated :
    ∃ (S : Examples ℚ ℚ) (wl : WeakLearner ℚ (RFn ℚ ℚ)) (f : WeightedMajority ℚ (RFn ℚ ℚ)) (qs : List (List ℚ)),
      (GBM.booster GBMLoss.L2.bestCoefficient S).run wl 101 (GBM.init S) = some (.ok (f, qs)) ∧
      qs[1]? = some (S.map Prod.snd) ∧
      ∀ e ∈ S, Regressor.pred f e.1 = e.2 / 2 ∧ e.2 ≠ 0 := by
  have hex : ∃ r, (GBM.booster GBMLoss.L2.bestCoefficient [((1 : ℚ), (2 : ℚ)), (3, 6)]).run
      (fun _ _ => (⟨fun x => x⟩ : RFn ℚ ℚ)) 101 (GBM.init [((1 : ℚ), (2 : ℚ)), (3, 6)]) = some (.ok r) ∧
      r.2[1]? = some [2, 6] ∧ Regressor.pred r.1 (1 : ℚ) = (1 : ℚ) ∧ Regressor.pred r.1 (3 : ℚ) = (3 : ℚ) := by
    have : ∀ o : Option (Except Panic (WeightedMajority ℚ (RFn ℚ ℚ) × List (List ℚ))),
        (match o with
          | some (.ok r) => decide (r.2[1]? = some [2, 6] ∧ Regressor.pred r.1 (1 : ℚ) = (1 : ℚ) ∧
              Regressor.pred r.1 (3 : ℚ) = (3 : ℚ))
          | _ => false) = true →
        ∃ r, o = some (.ok r) ∧ r.2[1]? = some [2, 6] ∧ Regressor.pred r.1 (1 : ℚ) = (1 : ℚ) ∧
          Regressor.pred r.1 (3 : ℚ) = (3 : ℚ) := by
      intro o ho
      match o, ho with
      | some (.ok r), ho => exact ⟨r, rfl, by simpa using ho⟩
    apply this
    decide +kernel
  obtain ⟨⟨f, qs⟩, h1, h2, h3, h4⟩ := hex
  refine ⟨_, _, f, qs, h1, h2, ?_⟩
  intro e he
  simp only [List.mem_cons, List.not_mem_nil, or_false] at he
  rcases he with rfl | rfl
  · exact ⟨by rw [h3]; norm_num, by norm_num⟩
  · exact ⟨by rw [h4]; norm_num, by norm_num⟩

/-- The coefficients are fitted against the targets and not against what is left of them: with a weak learner
that answers with a perfect predictor in every round (and a line search that answers 1 for it, as both the
L1 and the L2 search do), the accumulated values after `n` rounds are `n` times the targets. -/
theorem gbm_overshoots (best : List K → List K → Except Panic K) (S : Examples X K) (s₀ : GBM K H)
    (wl : WeakLearner K H) (hwl : ∀ k d, ∀ e ∈ S, Regressor.pred (wl k d) e.1 = e.2)
    (hbest : best (S.map Prod.snd) (S.map Prod.snd) = .ok 1)
    (n : Nat) (qs : List (List K)) (s : GBM K H)
    (hr : (GBM.booster best S).Reachable wl s₀ n qs s) :
    s.predictions = S.map fun e => (n : K) * e.2 := by
  obtain ⟨hlen, hfit, hpred, -⟩ := gbm_accumulates best S s₀ wl n qs s hr
  rw [hpred]
  apply List.map_congr_left
  intro e he
  unfold Spec.vote
  have : ∀ p ∈ List.zip s.weights s.hypotheses, p.1 * Regressor.pred p.2 e.1 = e.2 := by
    rintro ⟨w, g⟩ hp
    obtain ⟨i, hi⟩ := List.mem_iff_getElem?.1 hp
    obtain ⟨hg, hb, -⟩ := hfit i w g hi
    have hp : ∀ e ∈ S, Regressor.pred g e.1 = e.2 := by rw [hg]; exact hwl _ _
    rw [List.map_congr_left hp] at hb
    have := hbest.symm.trans hb
    simp only [Except.ok.injEq] at this
    rw [← this, one_mul]
    exact hp e he
  rw [List.map_congr_left this, sum_map_const', hlen]

omit [IsStrictOrderedRing K] in
/-- The squared-loss search does answer 1 for a perfect predictor. -/
theorem l2_perfect_one (ys : List K) (h : ys.sum ≠ 0) : GBMLoss.L2.bestCoefficient ys ys = .ok 1 := by
  simp [GBMLoss.bestCoefficient, h]

/-- Non-vacuity: the run of the witness above has reachable states after each round. -/
example : GBMLoss.L2.bestCoefficient [(2 : ℚ), 6] [1, 3] = .ok 2 := by decide +kernel

/-- C61 for GBM: with the squared loss the machine panics as soon as a predictor's outputs sum to zero,
although the loss is minimised at a perfectly finite coefficient. -/
theorem gbm_l2_panics (S : Examples X K) (s : GBM K H) (wl : WeakLearner K H) (n : Nat)
    (hn : n ≤ s.maxIter) (h0 : (S.map fun e => Regressor.pred (wl n s.predictions) e.1).sum = 0) :
    (GBM.booster GBMLoss.L2.bestCoefficient S).boost s wl n = .error .assertion := by
  have h0' : (GBM.regressAll (wl n s.predictions) (S.map Prod.fst)).sum = 0 := by
    unfold GBM.regressAll; rw [List.map_map]; exact h0
  simp only [GBM.booster, GBM.boost, GBMLoss.bestCoefficient]
  rw [if_neg (by omega), if_pos h0']

end Miniboosts.Props
