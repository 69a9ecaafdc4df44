import Verif.Model.RegTreeBoost
import Verif.Props.Returns
import Verif.Props.RegressionTree

/-! # Gradient boosting with the squared loss (C122)

The line search of the squared loss divides the sum of the targets by the sum of the predictor's outputs.  So each round adds the sum of the
targets to the sum of the predictions, whatever the weak learner is: after `n` rounds the predictions sum to `n` times what they should. -/

namespace Miniboosts.Props

open Miniboosts Spec

set_option linter.unusedSectionVars false

section any

variable {K : Type*} [Field K] [LinearOrder K] [IsStrictOrderedRing K] {H X : Type*} [Regressor H X K]

theorem l2_best_iff (ys ps : List K) (w : K) : GBMLoss.L2.bestCoefficient ys ps = .ok w ↔ ps.sum ≠ 0 ∧ w = ys.sum / ps.sum := by
  simp only [GBMLoss.bestCoefficient]
  by_cases h : ps.sum = 0
  · simp [h]
  · simp [h, eq_comm]

/-- Pairs whose outputs sum to `Y` each. -/
theorem vote_sum (S : Examples X K) {Y : K} : ∀ (wh : List (K × H)), (∀ p ∈ wh, p.1 * (S.map fun e => Regressor.pred p.2 e.1).sum = Y) →
    (S.map fun e => vote Regressor.pred wh e.1).sum = wh.length * Y := by
  intro wh
  induction wh with
  | nil => intro _; simp [vote]
  | cons p wh ih =>
    intro h
    have h1 := ih fun q hq => h q (List.mem_cons_of_mem _ hq)
    have h2 := h p (by simp)
    have e : (S.map fun e => vote Regressor.pred (p :: wh) e.1).sum = (S.map fun e => p.1 * Regressor.pred p.2 e.1).sum + (S.map fun e => vote Regressor.pred wh e.1).sum := by
      rw [← List.sum_map_add]
      rfl
    rw [e, h1, List.sum_map_mul_left, h2, List.length_cons]
    push_cast
    ring

theorem fitted_pair {S : Examples X K} {wl : WeakLearner K H} {wh : List (K × H)} (hf : Fitted GBMLoss.L2.bestCoefficient S wl wh) :
    ∀ p ∈ wh, p.1 * (S.map fun e => Regressor.pred p.2 e.1).sum = (S.map Prod.snd).sum ∧ (S.map Prod.snd).sum ≠ 0 := by
  rintro ⟨w, g⟩ hp
  obtain ⟨i, hi⟩ := List.mem_iff_getElem?.1 hp
  obtain ⟨-, hb, h0⟩ := hf i w g hi
  obtain ⟨h1, rfl⟩ := (l2_best_iff _ _ _).mp hb
  refine ⟨div_mul_cancel₀ _ h1, fun h => h0 ?_⟩
  rw [h, zero_div]

/-- C122: with the squared loss, whatever the weak learner, the predictions that GBM hands out in round `i + 1` sum to `i` times the sum of the targets,
and those after `n` rounds to `n` times that sum. -/
theorem gbm_l2_sum (S : Examples X K) (s₀ : GBM K H) (wl : WeakLearner K H) (n : Nat) (qs : List (List K)) (s : GBM K H)
    (hr : (GBM.booster GBMLoss.L2.bestCoefficient S).Reachable wl s₀ n qs s) :
    s.predictions.sum = n * (S.map Prod.snd).sum ∧ ∀ (i : Nat) (q : List K), qs[i]? = some q → q.sum = (i : K) * (S.map Prod.snd).sum := by
  obtain ⟨hlen, hfit, hpred, hq⟩ := gbm_accumulates _ S s₀ wl n qs s hr
  have hpair := fitted_pair hfit
  constructor
  · rw [hpred, vote_sum S _ fun p hp => (hpair p hp).1, hlen]
  · intro i q hi
    rw [hq i q hi, vote_sum S _ fun p hp => (hpair p (List.mem_of_mem_take hp)).1, List.length_take, hlen]
    have : i < qs.length := (List.getElem?_eq_some_iff.mp hi).1
    rw [(gbm_inv hr).qlen] at this
    rw [min_eq_left this.le]

/-- The square of a sum. -/
theorem sq_sum_le_card (l : List K) : l.sum ^ 2 ≤ l.length * (l.map (· ^ 2)).sum := by
  induction l with
  | nil => simp
  | cons a l ih =>
    simp only [List.map_cons, List.sum_cons, List.length_cons]
    push_cast
    set S := l.sum
    set Q := (l.map (· ^ 2)).sum
    have hQ0 : 0 ≤ Q := List.sum_nonneg (by intro y hy; obtain ⟨z, -, rfl⟩ := List.mem_map.mp hy; exact sq_nonneg _)
    have hn : (0 : K) ≤ l.length := Nat.cast_nonneg _
    rcases eq_or_lt_of_le hn with h0 | h0
    · rw [← h0] at ih ⊢
      have : S = 0 := by
        have h : S ^ 2 = 0 := le_antisymm (by linarith) (sq_nonneg S)
        exact pow_eq_zero_iff (two_ne_zero) |>.mp h
      rw [this]
      nlinarith [sq_nonneg a]
    · have h1 : 2 * a * S ≤ l.length * a ^ 2 + Q := by
        have h2 : 0 ≤ (l.length * a - S) ^ 2 := sq_nonneg _
        have h3 : l.length * (2 * a * S) ≤ l.length * (l.length * a ^ 2 + Q) := by nlinarith
        exact le_of_mul_le_mul_left h3 h0
      nlinarith

/-- C122: so the squared error of the accumulated predictions after `n` rounds is at least `(n - 1)²` times the square of the sum of the targets, divided
by the number of examples: it grows without bound with the number of rounds. -/
theorem gbm_l2_error_grows (S : Examples X K) (s₀ : GBM K H) (wl : WeakLearner K H) (n : Nat) (qs : List (List K)) (s : GBM K H)
    (hr : (GBM.booster GBMLoss.L2.bestCoefficient S).Reachable wl s₀ n qs s) :
    (((n : K) - 1) * (S.map Prod.snd).sum) ^ 2 ≤ S.length * (List.zipWith (fun p y => (p - y) ^ 2) s.predictions (S.map Prod.snd)).sum := by
  have hsum := (gbm_l2_sum S s₀ wl n qs s hr).1
  have hpred := (gbm_accumulates _ S s₀ wl n qs s hr).2.2.1
  set v : X → K := fun x => vote Regressor.pred (List.zip s.weights s.hypotheses) x with hv
  rw [hpred] at hsum ⊢
  have e1 : List.zipWith (fun p y => (p - y) ^ 2) (S.map fun e => v e.1) (S.map Prod.snd) = (S.map fun e => v e.1 - e.2).map (· ^ 2) := by
    rw [List.zipWith_map, List.map_map, List.zipWith_self]
    rfl
  have e2 : (S.map fun e => v e.1 - e.2).sum = ((n : K) - 1) * (S.map Prod.snd).sum := by
    have : (S.map fun e => v e.1 - e.2).sum = (S.map fun e => v e.1).sum - (S.map Prod.snd).sum := by
      clear hsum hpred e1 hr
      induction S with
      | nil => simp
      | cons e S ih => simp only [List.map_cons, List.sum_cons]; rw [ih]; ring
    rw [this, hsum]
    ring
  rw [e1, ← e2]
  have := sq_sum_le_card (S.map fun e => v e.1 - e.2)
  rwa [List.length_map] at this

/-- C122: targets that sum to zero: GBM with the squared loss never returns a model, whatever the weak learner. -/
theorem gbm_l2_centred_panics (S : Examples X K) (s₀ : GBM K H) (wl : WeakLearner K H) (h0 : (S.map Prod.snd).sum = 0) :
    ∃ e, (GBM.booster GBMLoss.L2.bestCoefficient S).run wl (s₀.maxIter + 1) s₀ = some (.error e) := by
  obtain ⟨r, hr⟩ := (gbm_terminates GBMLoss.L2.bestCoefficient S s₀ wl).1
  cases r with
  | error e => exact ⟨e, hr⟩
  | ok fq =>
    obtain ⟨f, qs⟩ := fq
    obtain ⟨wh, hfit, ⟨p, hp, -⟩, -⟩ := (gbm_returns_iff _ S s₀ wl).mp ⟨f, qs, hr⟩
    exact absurd h0 (fitted_pair hfit p hp).2

/-- C122: a run that returns has made all rounds: GBM with the squared loss never stops early. -/
theorem gbm_l2_all_rounds (S : Examples X K) (s₀ : GBM K H) (wl : WeakLearner K H) (f : WeightedMajority K H) (qs : List (List K))
    (hr : (GBM.booster GBMLoss.L2.bestCoefficient S).run wl (s₀.maxIter + 1) s₀ = some (.ok (f, qs))) :
    qs.length = s₀.maxIter ∧ ∃ wh : List (K × H), wh.length = s₀.maxIter ∧ Fitted GBMLoss.L2.bestCoefficient S wl wh := by
  obtain ⟨wh, hfit, ⟨p, hp, -⟩, h⟩ := (gbm_returns_iff _ S s₀ wl).mp ⟨f, qs, hr⟩
  have hY := (fitted_pair hfit p hp).2
  have hlen : wh.length = s₀.maxIter := by
    rcases h with h | ⟨-, h⟩
    · exact h
    · obtain ⟨h1, h2⟩ := (l2_best_iff _ _ _).mp h
      exact absurd h2.symm (div_ne_zero hY h1)
  refine ⟨?_, wh, hlen, hfit⟩
  obtain ⟨n, qs', s, out, k, hre, -, hb, hf, rfl, -⟩ := Booster.run_spec _ _ _ hr
  have hi := gbm_inv hre
  have hmax := hi.max
  have hle := hi.le
  simp only [GBM.booster, GBM.boost] at hb
  by_cases h1 : s.maxIter < n + 1
  · rw [if_pos h1, Except.ok.injEq] at hb
    subst hb
    simp only [List.append_nil]
    rw [hi.qlen]
    omega
  · rw [if_neg h1] at hb
    cases hc : GBMLoss.L2.bestCoefficient (S.map Prod.snd) (GBM.regressAll (wl (n + 1) s.predictions) (S.map Prod.fst)) with
    | error e => simp [hc] at hb
    | ok coef =>
      simp only [hc] at hb
      obtain ⟨h2, h3⟩ := (l2_best_iff _ _ _).mp hc
      have h0 : coef ≠ 0 := by rw [h3]; exact div_ne_zero hY h2
      rw [if_neg h0, Except.ok.injEq] at hb
      subst hb
      cases hf

/-- C122, as seen by the weak learner during a run that returns: it is asked once per allowed round, and the predictions it is handed in round `i + 1` sum
to `i` times the sum of the targets. -/
theorem gbm_l2_run_sums (S : Examples X K) (s₀ : GBM K H) (wl : WeakLearner K H) (f : WeightedMajority K H) (qs : List (List K))
    (hr : (GBM.booster GBMLoss.L2.bestCoefficient S).run wl (s₀.maxIter + 1) s₀ = some (.ok (f, qs))) :
    qs.length = s₀.maxIter ∧ ∀ (i : Nat) (q : List K), qs[i]? = some q → q.sum = (i : K) * (S.map Prod.snd).sum := by
  have h1 := (gbm_l2_all_rounds S s₀ wl f qs hr).1
  refine ⟨h1, fun i q hi => ?_⟩
  obtain ⟨n, qs', s, out, k, hre, -, hb, hf, rfl, -⟩ := Booster.run_spec _ _ _ hr
  have hql : qs'.length = n := (gbm_inv hre).qlen
  have hle := (gbm_inv hre).le
  have hout : out.queries = [] := by
    rw [List.length_append, hql] at h1
    have hmax := (gbm_inv hre).max
    simp only [GBM.booster, GBM.boost] at hb
    by_cases h2 : s.maxIter < n + 1
    · rw [if_pos h2, Except.ok.injEq] at hb
      subst hb
      rfl
    · rw [if_neg h2] at hb
      have : 1 ≤ out.queries.length := by omega
      cases hc : GBMLoss.L2.bestCoefficient (S.map Prod.snd) (GBM.regressAll (wl (n + 1) s.predictions) (S.map Prod.fst)) with
      | error e => simp [hc] at hb
      | ok coef =>
        simp only [hc] at hb
        by_cases h3 : coef = 0
        · rw [if_pos h3, Except.ok.injEq] at hb
          obtain ⟨wh, hlen, hfit⟩ := (gbm_l2_all_rounds S s₀ wl f _ hr).2
          obtain ⟨wh', hfit', ⟨p, hp, -⟩, -⟩ := (gbm_returns_iff _ S s₀ wl).mp ⟨f, _, hr⟩
          obtain ⟨h4, h5⟩ := (l2_best_iff _ _ _).mp hc
          exact absurd (h5.symm.trans h3) (div_ne_zero (fitted_pair hfit' p hp).2 h4)
        · rw [if_neg h3, Except.ok.injEq] at hb
          subst hb
          cases hf
  rw [hout, List.append_nil] at hi
  exact (gbm_l2_sum S s₀ wl n qs' s hre).2 i q hi

/-- The hypothesis of `gbm_l2_run_sums` holds for a learner that already knows the answer; the targets are 2 and 6, and the predictions handed out in the last
of the 100 rounds are 198 and 594. -/
example : ∃ (f : WeightedMajority ℚ (RFn ℚ ℚ)) (qs : List (List ℚ)),
    (GBM.booster GBMLoss.L2.bestCoefficient [((1 : ℚ), (2 : ℚ)), (3, 6)]).run (fun _ _ => (⟨fun x => x⟩ : RFn ℚ ℚ)) 101 (GBM.init [((1 : ℚ), (2 : ℚ)), (3, 6)]) = some (.ok (f, qs)) ∧
    qs[99]? = some [198, 594] := by
  have : ∀ o : Option (Except Panic (WeightedMajority ℚ (RFn ℚ ℚ) × List (List ℚ))),
      (match o with
        | some (.ok r) => decide (r.2[99]? = some [198, 594])
        | _ => false) = true → ∃ f qs, o = some (.ok (f, qs)) ∧ qs[99]? = some [198, 594] := by
    intro o ho
    match o, ho with
    | some (.ok r), h => exact ⟨r.1, r.2, rfl, by simpa using h⟩
  exact this _ (by decide +kernel)

end any

section trees

variable {K : Type*} [Field K] [LinearOrder K] [IsStrictOrderedRing K]

/-- With gradients that sum to zero a regression tree answers zero everywhere. -/
theorem rgrown_zero {env : TreeEnv K} {t : RegressionTree K} {s : Sample K} {g h : List K} {d : Nat} {idx : List Nat} {node : RegTrainNode K}
    (hgr : RGrown env t s g h d idx node) (h0 : weightOf g idx = 0) : node.toNode = .leaf 0 := by
  cases node with
  | leaf p l =>
    have hp : p = 0 := by rw [hgr.2.1, h0]; simp
    rw [hp]
    rfl
  | branch rule left right p l n =>
    obtain ⟨-, hl, hne, -⟩ := hgr
    exact absurd (by rw [hl.2.2, h0]; simp) hne

theorem rows_target {s : Sample K} (hs : SampleOk s) : s.rows.map Prod.snd = s.target := by
  unfold Sample.rows
  rw [List.map_map]
  apply List.ext_getElem
  · simp [hs.labels]
  · intro i h1 h2
    simp only [List.getElem_map, List.getElem_range, Function.comp]
    rw [List.getD_eq_getElem?_getD, List.getElem?_eq_getElem h2]
    rfl

/-- Predictions with the same sum as the targets: the tree answers zero everywhere. -/
theorem reg_tree_balanced {env : TreeEnv K} {t : RegressionTree K} {s : Sample K} (hs : SampleOk s) (hn : t.nSample = s.nSample) (hl : t.loss = GBMLoss.L2.toLossFn)
    {pred : List K} (hp : pred.length = s.nSample) (h0 : pred.sum = s.target.sum) {tree : TreeNode K} (e : t.produce env s pred = .ok tree) : tree = .leaf 0 := by
  obtain ⟨node, hgr, rfl⟩ := produce_rgrown hs hn (l2_derivs hs hl hp) e
  refine rgrown_zero hgr ?_
  unfold weightOf
  have hlen : (List.zipWith (fun y p => p - y) s.target pred).length = s.nSample := by rw [List.length_zipWith, hs.labels, hp, min_self]
  have e1 : (List.range s.nSample).map (fun i => (List.zipWith (fun y p => p - y) s.target pred).getD i 0) = List.zipWith (fun y p => p - y) s.target pred := by
    apply List.ext_getElem
    · simp [hlen]
    · intro i h1 h2
      simp only [List.getElem_map, List.getElem_range]
      rw [List.getD_eq_getElem?_getD, List.getElem?_eq_getElem h2]
      rfl
  rw [e1]
  have e2 : ∀ (a b : List K), a.length = b.length → (List.zipWith (fun y p => p - y) a b).sum = b.sum - a.sum := by
    intro a
    induction a with
    | nil => intro b hb; cases b with
      | nil => simp
      | cons => simp at hb
    | cons x a ih => intro b hb; cases b with
      | nil => simp at hb
      | cons y b => simp only [List.zipWith_cons_cons, List.sum_cons]; rw [ih b (by simpa using hb)]; ring
  rw [e2 _ _ (by rw [hs.labels, hp]), h0, sub_self]

/-- C122: gradient boosting with the squared loss and the crate's regression trees never returns a model when two or more rounds are allowed (the limit is
100): after the first round the predictions have the same sum as the targets, so the second tree is zero everywhere, and the line search panics.  This
holds for every sample, depth and regulariser. -/
theorem gbm_l2_trees_panic (env : TreeEnv K) (t : RegressionTree K) (s : Sample K) (hs : SampleOk s) (hn : t.nSample = s.nSample) (hl : t.loss = GBMLoss.L2.toLossFn)
    (s₀ : GBM K (TreeNode K)) (h2 : 2 ≤ s₀.maxIter) :
    ∃ e, (GBM.booster GBMLoss.L2.bestCoefficient s.rows).run (regTreeLearner env t s) (s₀.maxIter + 1) s₀ = some (.error e) := by
  obtain ⟨r, hr⟩ := (gbm_terminates GBMLoss.L2.bestCoefficient s.rows s₀ (regTreeLearner env t s)).1
  cases r with
  | error e => exact ⟨e, hr⟩
  | ok fq =>
    exfalso
    obtain ⟨f, qs⟩ := fq
    obtain ⟨-, wh, hlen, hfit⟩ := gbm_l2_all_rounds s.rows s₀ _ f qs hr
    obtain ⟨⟨w, g⟩, hwg⟩ : ∃ p, wh[1]? = some p := ⟨_, List.getElem?_eq_getElem (by omega)⟩
    obtain ⟨hg, hb, -⟩ := hfit 1 w g hwg
    obtain ⟨hne, -⟩ := (l2_best_iff _ _ _).mp hb
    apply hne
    set pred := s.rows.map fun e => vote Regressor.pred (wh.take 1) e.1 with hpred
    have hsum : pred.sum = s.target.sum := by
      have := vote_sum s.rows (wh.take 1) fun p hp => (fitted_pair hfit p (List.mem_of_mem_take hp)).1
      rw [hpred, this, List.length_take, rows_target hs]
      have : min 1 wh.length = 1 := by omega
      rw [this]
      simp
    have hplen : pred.length = s.nSample := by rw [hpred, List.length_map]; unfold Sample.rows; simp
    have hg0 : g = .leaf 0 := by
      rw [hg]
      unfold regTreeLearner
      cases hp : t.produce env s pred with
      | error e => rfl
      | ok tree => exact reg_tree_balanced hs hn hl hplen hsum hp
    rw [hg0]
    apply List.sum_eq_zero
    intro x hx
    obtain ⟨e, -, rfl⟩ := List.mem_map.mp hx
    rfl

/-- The hypotheses hold on four rows; the first tree is not constant. -/
example : SampleOk exTreeSample ∧ exReg.nSample = exTreeSample.nSample ∧ exReg.loss = GBMLoss.L2.toLossFn ∧ 2 ≤ (GBM.init exTreeSample.rows : GBM ℚ (TreeNode ℚ)).maxIter ∧
    regTreeLearner exEnv exReg exTreeSample 1 [0, 0, 0, 0] = .branch ⟨"x", 3 / 2⟩ (.leaf (-2 / 3)) (.leaf 0) :=
  ⟨exTreeSample_ok, rfl, rfl, by decide, by decide +kernel⟩

end trees

end Miniboosts.Props
