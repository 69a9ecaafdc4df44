import Verif.Props.FloatGBMGrows

/-! # What a run of gradient boosting in `f64` is made of (C123) -/

namespace Miniboosts.Props

open Miniboosts F64 Spec

variable {H X : Type*} [Regressor H X F64]

/-- The value that coefficients and predictors add up to, in the order of the rounds, every operation rounded. -/
noncomputable def addedUp (wh : List (F64 × H)) (x : X) : F64 := wh.foldl (fun acc p => add acc (mul p.1 (Regressor.pred p.2 x))) (fin 0)

/-- The `i`-th predictor is the weak learner's answer to the values that the earlier ones add up to, and its coefficient is the line search's answer for it, not
zero. -/
def FittedF64 (loss : GBMLoss) (S : Examples X ℝ) (wl : WeakLearner F64 H) (wh : List (F64 × H)) : Prop :=
  ∀ (i : Nat) (w : F64) (g : H), wh[i]? = some (w, g) →
    g = wl (i + 1) (S.map fun e => addedUp (wh.take i) e.1) ∧
    loss.bestCoefficientF (S.map Prod.snd) (S.map fun e => Regressor.pred g e.1) = .ok w ∧ w ≠ fin 0

structure FitInv (loss : GBMLoss) (S : Examples X ℝ) (wl : WeakLearner F64 H) (n : Nat) (Q : List (List F64)) (s : GBMF H) : Prop where
  wlen : s.weights.length = n
  hlen : s.hypotheses.length = n
  qlen : Q.length = n
  lossEq : s.loss = loss
  max : s.maxIter = 100
  le : n ≤ 100
  pred : s.predictions = S.map fun e => addedUp (List.zip s.weights s.hypotheses) e.1
  fit : FittedF64 loss S wl (List.zip s.weights s.hypotheses)
  q : ∀ i q, Q[i]? = some q → q = S.map fun e => addedUp ((List.zip s.weights s.hypotheses).take i) e.1

/-- One round. -/
theorem fit_step {loss : GBMLoss} {S : Examples X ℝ} {wl : WeakLearner F64 H} {n : Nat} {Q : List (List F64)} {s : GBMF H} (hI : FitInv loss S wl n Q s)
    {out : BoostOut (GBMF H) F64} (hb : GBMF.Boost S s wl (n + 1) (.ok out)) :
    (out.flow = .cont → FitInv loss S wl (n + 1) (Q ++ out.queries) out.state) ∧
    (∀ k, out.flow = .brk k → FitInv loss S wl n Q out.state ∧ ((out.queries = [] ∧ n = 100) ∨
      (out.queries = [s.predictions] ∧ s.predictions = (S.map fun e => addedUp (List.zip out.state.weights out.state.hypotheses) e.1) ∧
        loss.bestCoefficientF (S.map Prod.snd) (S.map fun e => Regressor.pred (wl (n + 1) s.predictions) e.1) = .ok (fin 0)))) := by
  unfold GBMF.Boost at hb
  by_cases h1 : s.maxIter < n + 1
  · rw [if_pos h1] at hb
    cases hb
    refine ⟨fun h => (by cases h), fun k _ => ⟨hI, Or.inl ⟨rfl, ?_⟩⟩⟩
    have := hI.max
    have := hI.le
    omega
  · rw [if_neg h1] at hb
    dsimp only at hb
    rw [hI.lossEq] at hb
    cases hc : loss.bestCoefficientF (S.map Prod.snd) (S.map fun e => Regressor.pred (wl (n + 1) s.predictions) e.1) with
    | error e => rw [hc] at hb; cases hb
    | ok coef =>
      rw [hc] at hb
      dsimp only at hb
      by_cases h0 : coef = fin 0
      · rw [if_pos h0] at hb
        cases hb
        refine ⟨fun h => (by cases h), fun k _ => ⟨⟨hI.wlen, hI.hlen, hI.qlen, rfl, hI.max, hI.le, hI.pred, hI.fit, hI.q⟩, Or.inr ⟨rfl, hI.pred, by rw [h0]⟩⟩⟩
      · rw [if_neg h0] at hb
        obtain ⟨new, hu, hb⟩ := hb
        rw [parUpdate_iff] at hu
        rw [Except.ok.injEq] at hb
        subst hb
        refine ⟨fun _ => ?_, fun k h => (by cases h)⟩
        set h := wl (n + 1) s.predictions with hh
        have hlen : s.weights.length = s.hypotheses.length := by rw [hI.wlen, hI.hlen]
        have hz : List.zip (s.weights ++ [coef]) (s.hypotheses ++ [h]) = List.zip s.weights s.hypotheses ++ [(coef, h)] := by
          rw [List.zip_append hlen]; rfl
        have hzl : (List.zip s.weights s.hypotheses).length = n := by rw [List.length_zip, hI.wlen, hI.hlen, min_self]
        have hmax := hI.max
        refine ⟨by simp [hI.wlen], by simp [hI.hlen], by simp [hI.qlen], rfl, hI.max, by omega, ?_, ?_, ?_⟩
        · simp only [hz]
          rw [hu, hI.pred, updateZip_map_map]
          apply List.map_congr_left
          intro e _
          simp [addedUp]
        · intro i w g hi
          simp only [hz] at hi ⊢
          rw [List.getElem?_append] at hi
          by_cases him : i < (List.zip s.weights s.hypotheses).length
          · rw [if_pos him] at hi
            rw [List.take_append_of_le_length him.le]
            exact hI.fit i w g hi
          · rw [if_neg him] at hi
            have hi0 : i - (List.zip s.weights s.hypotheses).length = 0 := by
              by_contra hne
              rw [List.getElem?_eq_none (by rw [List.length_singleton]; omega)] at hi
              simp at hi
            have him' : i = n := by omega
            rw [hi0] at hi
            simp only [List.getElem?_cons_zero, Option.some.injEq, Prod.mk.injEq] at hi
            obtain ⟨rfl, rfl⟩ := hi
            refine ⟨?_, hc, h0⟩
            rw [List.take_append_of_le_length (by omega), List.take_of_length_le (by omega), him', hh, hI.pred]
        · intro i q hi
          simp only [hz]
          rw [List.getElem?_append] at hi
          by_cases him : i < Q.length
          · rw [if_pos him] at hi
            rw [List.take_append_of_le_length (by rw [hzl, ← hI.qlen]; exact him.le)]
            exact hI.q i q hi
          · rw [if_neg him] at hi
            have hi0 : i - Q.length = 0 := by
              by_contra hne
              rw [List.getElem?_eq_none (by simp; omega)] at hi
              simp at hi
            have him' : i = n := by have := hI.qlen; omega
            rw [hi0] at hi
            simp only [List.getElem?_cons_zero, Option.some.injEq] at hi
            rw [List.take_append_of_le_length (by omega), List.take_of_length_le (by omega), ← hi, hI.pred]

theorem fit_loop {loss : GBMLoss} {S : Examples X ℝ} {wl : WeakLearner F64 H} {s : GBMF H} {it : Nat} {r} (h : (GBMF.booster S).Loop wl s it r) :
    ∀ n Q, it = n + 1 → FitInv loss S wl n Q s → ∀ s' qs, r = .ok (s', qs) → ∃ m Q', FitInv loss S wl m Q' s' ∧
      ((Q ++ qs = Q' ∧ m = 100) ∨ ∃ q, Q ++ qs = Q' ++ [q] ∧ q = (S.map fun e => addedUp (List.zip s'.weights s'.hypotheses) e.1) ∧
        loss.bestCoefficientF (S.map Prod.snd) (S.map fun e => Regressor.pred (wl (m + 1) q) e.1) = .ok (fin 0)) := by
  induction h with
  | panic h => intro n Q _ _ s' qs e; cases e
  | stop h hf =>
    rintro n Q rfl hI s' qs e
    cases e
    obtain ⟨hI', hq⟩ := (fit_step hI h).2 _ hf
    refine ⟨n, Q, hI', ?_⟩
    rcases hq with ⟨e1, e2⟩ | ⟨e1, e2, e3⟩
    · exact Or.inl ⟨by rw [e1, List.append_nil], e2⟩
    · exact Or.inr ⟨_, by rw [e1], e2, e3⟩
  | @next s it out r h hf hr ih =>
    rintro n Q rfl hI s' qs e
    cases r with
    | error e' => cases e
    | ok p =>
      obtain ⟨s₁, qs₁⟩ := p
      cases e
      obtain ⟨m, Q', h1, h2⟩ := ih (n + 1) _ rfl ((fit_step hI h).1 hf) s₁ qs₁ rfl
      rw [List.append_assoc] at h2
      exact ⟨m, Q', h1, h2⟩

/-- C123: a run of gradient boosting in `f64` returns the combination of at most 100 predictors: each one answers to the values that the earlier ones add up to, its
coefficient is the line search's answer; the weak learner is handed exactly these values, and the run ends after 100 rounds or when the coefficient is zero. -/
theorem gbm_f64_accumulates (S : Examples X ℝ) (loss : GBMLoss) (wl : WeakLearner F64 H) (f : WeightedMajority F64 H) (qs : List (List F64))
    (hr : (GBMF.booster S).Runs wl (GBMF.init S loss) (.ok (f, qs))) :
    ∃ (ws : List F64) (hs : List H), ws.length = hs.length ∧ ws.length ≤ 100 ∧ fromSlices ws hs = .ok f ∧ FittedF64 loss S wl (List.zip ws hs) ∧
      (∀ i q, qs[i]? = some q → q = S.map fun e => addedUp ((List.zip ws hs).take i) e.1) ∧
      ((ws.length = 100 ∧ qs.length = 100) ∨ (qs.length = ws.length + 1 ∧
        loss.bestCoefficientF (S.map Prod.snd) (S.map fun e => Regressor.pred (wl (ws.length + 1) (S.map fun e => addedUp (List.zip ws hs) e.1)) e.1) = .ok (fin 0))) := by
  cases hr with
  | @ok s₀ s₁ qs' o h hl hp =>
    cases h
    obtain ⟨m, Q', hI, hq⟩ := fit_loop (loss := loss) hl 0 [] rfl ⟨rfl, rfl, rfl, rfl, rfl, by omega, by simp [addedUp, GBMF.init], fun i w g h => (by simp [GBMF.init] at h), fun i q h => (by simp at h)⟩ _ _ rfl
    rw [List.nil_append] at hq
    have hzl : (List.zip s₁.weights s₁.hypotheses).length = m := by rw [List.length_zip, hI.wlen, hI.hlen, min_self]
    refine ⟨s₁.weights, s₁.hypotheses, by rw [hI.wlen, hI.hlen], by rw [hI.wlen]; exact hI.le, hp, hI.fit, ?_, ?_⟩
    · intro i q hi
      rcases hq with ⟨e, -⟩ | ⟨q', e, e2, -⟩
      · rw [e] at hi; exact hI.q i q hi
      · rw [e, List.getElem?_append] at hi
        by_cases him : i < Q'.length
        · rw [if_pos him] at hi; exact hI.q i q hi
        · rw [if_neg him] at hi
          have hi0 : i - Q'.length = 0 := by
            by_contra hne
            rw [List.getElem?_eq_none (by simp; omega)] at hi
            simp at hi
          rw [hi0] at hi
          simp only [List.getElem?_cons_zero, Option.some.injEq] at hi
          have := hI.qlen
          rw [← hi, e2, List.take_of_length_le (by omega)]
    · rcases hq with ⟨e, h100⟩ | ⟨q', e, e2, e3⟩
      · exact Or.inl ⟨by rw [hI.wlen]; exact h100, by rw [e, hI.qlen]; exact h100⟩
      · refine Or.inr ⟨by rw [e]; simp [hI.qlen, hI.wlen], ?_⟩
        rw [hI.wlen, ← e2]
        exact e3

/-- Two examples and a learner whose predictors output the targets: there is a run, and it returns. -/
example : ∃ f qs, (GBMF.booster [((1 : ℝ), (2 : ℝ)), (3, 6)]).Runs (fun _ _ => (⟨fun x => fin (2 * x)⟩ : RFn ℝ F64)) (GBMF.init [((1 : ℝ), (2 : ℝ)), (3, 6)] .L2) (.ok (f, qs)) ∧
    qs.length = 100 := by
  obtain ⟨r, hr, -⟩ := gbm_f64_one_result [((1 : ℝ), (2 : ℝ)), (3, 6)] .L2 .L2 (fin 0) (fun _ _ => (⟨fun x => fin (2 * x)⟩ : RFn ℝ F64))
  have h2 : PositiveTotal [2, 6] := by
    refine ⟨fun x hx => ?_, by norm_num⟩
    rcases List.mem_cons.mp hx with rfl | hx
    · exact ⟨⟨2, 0, by norm_num, by norm_num, by norm_num⟩, by norm_num, by norm_num⟩
    · rw [List.mem_singleton] at hx
      subst hx
      exact ⟨⟨6, 0, by norm_num, by norm_num, by norm_num⟩, by norm_num, by norm_num⟩
  have hrun := (hr r).mpr rfl
  obtain ⟨f, qs, rfl, -, -, hq, -⟩ := gbm_f64_overshoots [((1 : ℝ), (2 : ℝ)), (3, 6)] h2 (by simp) (fun _ _ => (⟨fun x => fin (2 * x)⟩ : RFn ℝ F64))
    (fun _ _ => ⟨[2, 6], h2, by simp [Regressor.pred]; norm_num⟩) r hrun
  exact ⟨f, qs, hrun, hq⟩

end Miniboosts.Props
