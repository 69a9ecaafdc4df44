import Verif.Lemmas.ERLPBoost
import Verif.Spec.SoftMargin
import Verif.Props.LPBoost

/-! # Properties of ERLPBoost (C28, C29, C52) -/

namespace Miniboosts.Props

open ERLPBoost Real LP

variable {H X : Type*} [Classifier H X ℝ]

/-! ## What does not depend on the solver -/

theorem entropyFromUni_spec (d : List ℝ) :
    entropyFromUni d = (d.map fun p => p * log p).sum + log (d.length : ℝ) := by
  unfold entropyFromUni entropy
  congr 2
  apply List.map_congr_left
  intro p _
  split
  · rename_i h; rw [h]; simp
  · rfl

theorem objval_spec (S : Examples X ℝ) (η : ℝ) (d : List ℝ) (h : H) :
    ERLPBoost.objval S η d h = Spec.smoothedEdge S η d (conf h) := by
  unfold ERLPBoost.objval Spec.smoothedEdge
  rw [edge_eq_spec, entropyFromUni_spec]

theorem foldl_max_bound (l : List ℝ) (a : ℝ) :
    (∀ x ∈ a :: l, x ≤ l.foldl max a) ∧ l.foldl max a ∈ a :: l := by
  induction l generalizing a with
  | nil => simp
  | cons b l ih =>
    obtain ⟨h1, h2⟩ := ih (max a b)
    simp only [List.foldl_cons]
    constructor
    · intro x hx
      have h3 := h1 (max a b) (by simp)
      simp only [List.mem_cons] at hx
      rcases hx with rfl | rfl | hx
      · exact (le_max_left _ _).trans h3
      · exact (le_max_right _ _).trans h3
      · exact h1 x (by simp [hx])
    · rcases List.mem_cons.1 h2 with h | h
      · rw [h]
        rcases max_choice a b with hc | hc <;> rw [hc] <;> simp
      · simp [h]

theorem newGammaStar_spec {S : Examples X ℝ} {η : ℝ} {d : List ℝ} {hs : List H} {g : ℝ}
    (h : ERLPBoost.newGammaStar S η d hs = .ok g) :
    (∀ k ∈ hs, Spec.smoothedEdge S η d (conf k) ≤ g) ∧ ∃ k ∈ hs, g = Spec.smoothedEdge S η d (conf k) := by
  unfold ERLPBoost.newGammaStar at h
  cases hm : (hs.map fun h => Miniboosts.edge S d h) with
  | nil => rw [hm] at h; simp at h
  | cons e es =>
    rw [hm] at h
    simp only [Except.ok.injEq] at h
    obtain ⟨h1, h2⟩ := foldl_max_bound es e
    rw [← hm] at h1 h2
    constructor
    · intro k hk
      have := h1 _ (List.mem_map.2 ⟨k, hk, rfl⟩)
      rw [← objval_spec, ← h]
      unfold ERLPBoost.objval
      linarith
    · obtain ⟨k, hk, hk2⟩ := List.mem_map.1 h2
      refine ⟨k, hk, ?_⟩
      rw [← objval_spec, ← h, ← hk2]
      rfl

theorem newGammaStar_ok (S : Examples X ℝ) (η : ℝ) (d : List ℝ) (hs : List H) (h : hs ≠ []) :
    ∃ g, ERLPBoost.newGammaStar S η d hs = .ok g := by
  cases hs with
  | nil => exact absurd rfl h
  | cons a l => exact ⟨_, rfl⟩

/-- The value of the regularisation parameter during a run. -/
noncomputable def erlpEta (S : Examples X ℝ) (s₀ : ERLPBoost H) : ℝ :=
  max (1 / 2) (log ((S.length : ℝ) / s₀.nu) / s₀.halfTolerance)

/-- The limit on the number of calls of the weak learner, as documented. -/
noncomputable def erlpLimit (S : Examples X ℝ) (s₀ : ERLPBoost H) : Nat :=
  ⌈max (4 / s₀.halfTolerance) (8 * log ((S.length : ℝ) / s₀.nu) / s₀.halfTolerance ^ 2)⌉₊

/-- The smoothed edges of a history of rounds. -/
noncomputable def smoothedEdges (S : Examples X ℝ) (η : ℝ) (qs : List (List ℝ)) (hs : List H) : List ℝ :=
  List.zipWith (fun q h => Spec.smoothedEdge S η q (conf h)) qs hs

/-- What holds between rounds, whatever the solver does. -/
structure ErInv (S : Examples X ℝ) (s₀ : ERLPBoost H) (n : Nat) (qs : List (List ℝ)) (s : ERLPBoost H) : Prop where
  bin : checkBinary S = .ok ()
  nu1 : 1 ≤ s₀.nu
  nu2 : s₀.nu ≤ S.length
  tol0 : 0 < s₀.halfTolerance
  tol1 : s₀.halfTolerance < 1
  tol : s.halfTolerance = s₀.halfTolerance
  eta : s.eta = erlpEta S s₀
  maxIter : s.maxIter = erlpLimit S s₀
  le : n ≤ erlpLimit S s₀
  hlen : s.hypotheses.length = n
  qlen : qs.length = n
  hat_le : ∀ g ∈ 1 :: smoothedEdges S (erlpEta S s₀) qs s.hypotheses, s.gammaHat ≤ g
  hat_mem : s.gammaHat ∈ 1 :: smoothedEdges S (erlpEta S s₀) qs s.hypotheses
  star0 : n = 0 → s.gammaStar = -1
  star1 : 0 < n → (∀ h ∈ s.hypotheses, Spec.smoothedEdge S (erlpEta S s₀) s.dist (conf h) ≤ s.gammaStar) ∧
    ∃ h ∈ s.hypotheses, s.gammaStar = Spec.smoothedEdge S (erlpEta S s₀) s.dist (conf h)
  model : ∃ m, s.qpModel = some m ∧ m.eta = erlpEta S s₀ ∧ (n = 0 → m = ERLP.QPModel.init (erlpEta S s₀) S.length (1 / s₀.nu)) ∧
    (0 < n → s.dist = m.dist)
  uni : n = 0 → s.dist = List.replicate S.length (1 / (S.length : ℝ))

/-- Preprocessing succeeds exactly for a valid sample and parameters in range. -/
theorem erlp_preprocess_iff (S : Examples X ℝ) (s₀ : ERLPBoost H) (hn : s₀.nSample = S.length) :
    (∃ s, ERLPBoost.preprocess S s₀ = .ok s) ↔
      checkBinary S = .ok () ∧ 0 < s₀.halfTolerance ∧ s₀.halfTolerance < 1 ∧ 1 ≤ s₀.nu ∧ s₀.nu ≤ S.length := by
  unfold ERLPBoost.preprocess
  cases hc : checkBinary S with
  | error e => simp
  | ok u =>
    simp only [true_and]
    by_cases h0 : 0 ≤ s₀.halfTolerance ∧ s₀.halfTolerance < 1
    · rw [if_pos h0]
      by_cases h1 : s₀.halfTolerance = 0
      · simp [h1]
      · rw [if_neg h1]
        have h2 : 0 < s₀.halfTolerance := lt_of_le_of_ne h0.1 (Ne.symm h1)
        simp only [ERLPBoost.initSolver, ERLPBoost.regularizationParam, checkNu, hn]
        by_cases h3 : 1 ≤ s₀.nu ∧ s₀.nu ≤ (S.length : ℝ)
        · simp [h3, h2, h0.2]
        · simp [h3, h2, h0.2]
    · rw [if_neg h0]
      simp only [reduceCtorEq, exists_false, false_iff]
      rintro ⟨a, b, -⟩
      exact h0 ⟨a.le, b⟩

theorem er_start {S : Examples X ℝ} {s₀ s : ERLPBoost H} (hn : s₀.nSample = S.length)
    (h : ERLPBoost.preprocess S s₀ = .ok s) : ErInv S s₀ 0 [] s := by
  obtain ⟨h1, h2, h3, h4, h5⟩ := (erlp_preprocess_iff S s₀ hn).1 ⟨s, h⟩
  unfold ERLPBoost.preprocess at h
  rw [h1] at h
  simp only [if_pos (show 0 ≤ s₀.halfTolerance ∧ s₀.halfTolerance < 1 from ⟨h2.le, h3⟩), if_neg h2.ne',
    ERLPBoost.initSolver, ERLPBoost.regularizationParam, checkNu, hn, if_pos (show 1 ≤ s₀.nu ∧ s₀.nu ≤ (S.length : ℝ) from ⟨h4, h5⟩),
    Except.ok.injEq] at h
  subst h
  refine ⟨h1, h4, h5, h2, h3, rfl, rfl, ?_, Nat.zero_le _, rfl, rfl, ?_, ?_, fun _ => rfl, ?_, ⟨_, rfl, rfl, fun _ => rfl, ?_⟩, fun _ => rfl⟩
  · simp [ERLPBoost.maxLoop, erlpLimit, hn]
  · simp [smoothedEdges]
  · simp
  · intro h; exact absurd h (lt_irrefl _)
  · intro h; exact absurd h (lt_irrefl _)

/-- One call of `boost`, whatever the solver does. -/
theorem er_step {S : Examples X ℝ} {s₀ s : ERLPBoost H} {n : Nat} {qs : List (List ℝ)} (hi : ErInv S s₀ n qs s)
    {solver : Solver ℝ} {fuel : Nat} (wl : WeakLearner ℝ H) {out : BoostOut (ERLPBoost H) ℝ}
    (hb : ERLPBoost.boost solver fuel S s wl (n + 1) = .ok out) :
    (n = erlpLimit S s₀ ∧ out.flow = .brk n ∧ out.queries = [] ∧ out.state = s) ∨
    (n < erlpLimit S s₀ ∧ out.queries = [s.dist] ∧
      out.state.gammaHat = min s.gammaHat (Spec.smoothedEdge S (erlpEta S s₀) s.dist (conf (wl (n + 1) s.dist))) ∧
      ((out.flow = .brk (n + 1) ∧ out.state.gammaHat - s.gammaStar ≤ s₀.halfTolerance ∧
          out.state.hypotheses = s.hypotheses ∧ out.state.qpModel = s.qpModel) ∨
       (out.flow = .cont ∧ s₀.halfTolerance < out.state.gammaHat - s.gammaStar ∧
          out.state.hypotheses = s.hypotheses ++ [wl (n + 1) s.dist] ∧
          (∃ m m', s.qpModel = some m ∧ m.update solver fuel S (wl (n + 1) s.dist) = .ok m' ∧ out.state.qpModel = some m' ∧
            out.state.dist = m'.dist)))) := by
  unfold ERLPBoost.boost at hb
  rw [hi.maxIter] at hb
  by_cases c : erlpLimit S s₀ < n + 1
  · rw [if_pos c, Except.ok.injEq] at hb
    subst hb
    have : n = erlpLimit S s₀ := by have := hi.le; omega
    exact Or.inl ⟨this, by rw [← this], rfl, rfl⟩
  rw [if_neg c] at hb
  right
  simp only [objval_spec, hi.eta, hi.tol] at hb
  by_cases c2 : min s.gammaHat (Spec.smoothedEdge S (erlpEta S s₀) s.dist (conf (wl (n + 1) s.dist))) - s.gammaStar ≤ s₀.halfTolerance
  · rw [if_pos c2, Except.ok.injEq] at hb
    subst hb
    exact ⟨by omega, rfl, rfl, Or.inl ⟨rfl, c2, rfl, rfl⟩⟩
  · rw [if_neg c2] at hb
    obtain ⟨m, hm, -⟩ := hi.model
    rw [hm] at hb
    simp only at hb
    cases hu : m.update solver fuel S (wl (n + 1) s.dist) with
    | error e => rw [hu] at hb; simp at hb
    | ok m' =>
      rw [hu] at hb
      simp only at hb
      cases hg : ERLPBoost.newGammaStar S (erlpEta S s₀) m'.dist (s.hypotheses ++ [wl (n + 1) s.dist]) with
      | error e => rw [hg] at hb; simp at hb
      | ok g =>
        rw [hg] at hb
        simp only [Except.ok.injEq] at hb
        subst hb
        exact ⟨by omega, rfl, rfl, Or.inr ⟨rfl, not_le.1 c2, rfl, m, m', hm, hu, rfl, rfl⟩⟩

theorem solveLoop_eta (solver : Solver ℝ) (fuel : Nat) (m m' : ERLP.QPModel) (old : ℝ)
    (h : ERLP.QPModel.solveLoop solver fuel m old = .ok m') : m'.eta = m.eta := by
  induction fuel generalizing m old with
  | zero => simp [ERLP.QPModel.solveLoop] at h
  | succ fuel ih =>
    simp only [ERLP.QPModel.solveLoop] at h
    by_cases c0 : (m.dist.any fun d => decide (d + ERLP.eps ≤ 0)) = true
    · rw [if_pos c0] at h; simp at h
    rw [if_neg c0] at h
    by_cases c1 : (solver (m.program m.dist)).status = .other
    · rw [if_pos c1] at h; simp at h
    rw [if_neg c1] at h
    by_cases c2 : old - (solver (m.program m.dist)).objVal < ERLP.qpTolerance ∨
        (solver (m.program m.dist)).status = .insufficientProgress
    · rw [if_pos c2, Except.ok.injEq] at h; rw [h]
    rw [if_neg c2] at h
    by_cases c3 : (solver (m.program m.dist)).x.length < 1 ∨
        (solver (m.program m.dist)).z.length < 1 + 2 * m.nExamples
    · rw [if_pos c3] at h; simp at h
    rw [if_neg c3] at h
    exact ih { m with dist := ((solver (m.program m.dist)).x.drop 1).map fun d => max d 0
                      weights := ((solver (m.program m.dist)).z.drop (1 + 2 * m.nExamples)).map fun w => max w 0 } _ h

theorem er_inv {S : Examples X ℝ} {s₀ : ERLPBoost H} (hn : s₀.nSample = S.length) {solver : Solver ℝ} {fuel : Nat}
    {wl : WeakLearner ℝ H} {n : Nat} {qs : List (List ℝ)} {s : ERLPBoost H}
    (hr : (ERLPBoost.booster solver fuel S).Reachable wl s₀ n qs s) : ErInv S s₀ n qs s := by
  induction hr with
  | start h => exact er_start hn h
  | @step n qs s₁ out hr hb hf ih =>
    have hb' : ERLPBoost.boost solver fuel S s₁ wl (n + 1) = .ok out := hb
    rcases er_step ih wl hb' with ⟨-, h, -⟩ | ⟨h1, h2, h3, ⟨h, -⟩ | ⟨-, h4, h5, m, m', h6, h7, h8, h9⟩⟩
    · rw [h] at hf; cases hf
    · rw [h] at hf; cases hf
    have hval : smoothedEdges S (erlpEta S s₀) (qs ++ out.queries) out.state.hypotheses =
        smoothedEdges S (erlpEta S s₀) qs s₁.hypotheses ++
          [Spec.smoothedEdge S (erlpEta S s₀) s₁.dist (conf (wl (n + 1) s₁.dist))] := by
      unfold smoothedEdges
      rw [h2, h5, List.zipWith_append (by rw [ih.qlen, ih.hlen])]
      rfl
    -- what `boost` leaves alone
    have hrest : out.state.halfTolerance = s₁.halfTolerance ∧ out.state.eta = s₁.eta ∧ out.state.maxIter = s₁.maxIter ∧
        ERLPBoost.newGammaStar S s₁.eta m'.dist (s₁.hypotheses ++ [wl (n + 1) s₁.dist]) = .ok out.state.gammaStar := by
      unfold ERLPBoost.boost at hb'
      rw [ih.maxIter, if_neg (by omega), h6] at hb'
      simp only [objval_spec] at hb'
      rw [ih.eta, ih.tol] at hb'
      rw [← h3] at hb'
      rw [if_neg (not_le.2 h4)] at hb'
      rw [h7] at hb'
      simp only at hb'
      obtain ⟨g, hg⟩ := newGammaStar_ok S (erlpEta S s₀) m'.dist (s₁.hypotheses ++ [wl (n + 1) s₁.dist]) (by simp)
      rw [hg] at hb'
      simp only [Except.ok.injEq] at hb'
      rw [← hb']
      exact ⟨ih.tol.symm, ih.eta.symm, ih.maxIter.symm, by rw [ih.eta]; exact hg⟩
    obtain ⟨r1, r2, r3, r4⟩ := hrest
    refine ⟨ih.bin, ih.nu1, ih.nu2, ih.tol0, ih.tol1, by rw [r1, ih.tol], by rw [r2, ih.eta], by rw [r3, ih.maxIter], h1,
      by rw [h5]; simp [ih.hlen], by rw [h2]; simp [ih.qlen], ?_, ?_, by omega, ?_, ⟨m', h8, ?_, by omega, fun _ => h9⟩, by omega⟩
    · rw [hval, h3]
      intro g hg
      simp only [List.mem_cons, List.mem_append, List.not_mem_nil, or_false] at hg
      rcases hg with hg | hg | hg
      · exact (min_le_left _ _).trans (ih.hat_le g (by simp [hg]))
      · exact (min_le_left _ _).trans (ih.hat_le g (by simp [hg]))
      · rw [hg]; exact min_le_right _ _
    · rw [hval, h3]
      rcases min_choice s₁.gammaHat (Spec.smoothedEdge S (erlpEta S s₀) s₁.dist (conf (wl (n + 1) s₁.dist))) with hc | hc
      · rw [hc]
        have := ih.hat_mem
        simp only [List.mem_cons, List.mem_append] at this ⊢
        rcases this with h | h
        · exact Or.inl h
        · exact Or.inr (Or.inl h)
      · rw [hc]; simp
    · intro _
      rw [ih.eta, ← h5, ← h9] at r4
      exact newGammaStar_spec r4
    · obtain ⟨m₀, hm₀, he, -⟩ := ih.model
      rw [h6, Option.some.injEq] at hm₀
      subst hm₀
      unfold ERLP.QPModel.update at h7
      rw [solveLoop_eta _ _ _ _ _ h7]
      exact he

/-- C29: the upper estimate is the smallest smoothed edge seen so far (or 1); the lower estimate is `-1` before
the first round and then the largest smoothed edge, under the current distribution, of the hypotheses collected so
far -- whatever the solver answers. -/
theorem erlp_estimates (S : Examples X ℝ) (s₀ : ERLPBoost H) (hn : s₀.nSample = S.length) (solver : Solver ℝ) (fuel : Nat)
    (wl : WeakLearner ℝ H) (n : Nat) (qs : List (List ℝ)) (s : ERLPBoost H)
    (hr : (ERLPBoost.booster solver fuel S).Reachable wl s₀ n qs s) :
    (∀ g ∈ 1 :: smoothedEdges S (erlpEta S s₀) qs s.hypotheses, s.gammaHat ≤ g) ∧
      s.gammaHat ∈ 1 :: smoothedEdges S (erlpEta S s₀) qs s.hypotheses ∧
      (n = 0 → s.gammaStar = -1) ∧
      (0 < n → (∀ h ∈ s.hypotheses, Spec.smoothedEdge S (erlpEta S s₀) s.dist (conf h) ≤ s.gammaStar) ∧
        ∃ h ∈ s.hypotheses, s.gammaStar = Spec.smoothedEdge S (erlpEta S s₀) s.dist (conf h)) := by
  have hi := er_inv hn hr
  exact ⟨hi.hat_le, hi.hat_mem, hi.star0, hi.star1⟩

/-- C29: a round never increases the upper estimate; it stops without asking the weak learner when the limit has
been reached, and otherwise it stops exactly when the gap between the two estimates is at most `tolerance / 2` --
whatever the solver answers. -/
theorem erlp_stopping (S : Examples X ℝ) (s₀ : ERLPBoost H) (hn : s₀.nSample = S.length) (solver : Solver ℝ) (fuel : Nat)
    (wl : WeakLearner ℝ H) (n : Nat) (qs : List (List ℝ)) (s : ERLPBoost H)
    (hr : (ERLPBoost.booster solver fuel S).Reachable wl s₀ n qs s) (out : BoostOut (ERLPBoost H) ℝ)
    (hb : (ERLPBoost.booster solver fuel S).boost s wl (n + 1) = .ok out) :
    out.state.gammaHat ≤ s.gammaHat ∧ out.queries.length ≤ 1 ∧
    ((∃ k, out.flow = .brk k) ↔ n = erlpLimit S s₀ ∨ out.state.gammaHat - s.gammaStar ≤ s₀.halfTolerance) ∧
    (out.queries = [] ↔ n = erlpLimit S s₀) ∧
    (out.queries ≠ [] → out.queries = [s.dist] ∧
      out.state.gammaHat = min s.gammaHat (Spec.smoothedEdge S (erlpEta S s₀) s.dist (conf (wl (n + 1) s.dist)))) := by
  have hi := er_inv hn hr
  rcases er_step hi wl hb with ⟨h1, h2, h3, h4⟩ | ⟨h1, h2, h3, ⟨h4, h5, -⟩ | ⟨h4, h5, -⟩⟩
  · refine ⟨by rw [h4], by rw [h3]; simp, ?_, by rw [h3]; simp [h1], by rw [h3]; simp⟩
    exact ⟨fun _ => Or.inl h1, fun _ => ⟨n, h2⟩⟩
  · refine ⟨by rw [h3]; exact min_le_left _ _, by rw [h2]; simp, ?_, by rw [h2]; simp; omega, fun _ => ⟨h2, h3⟩⟩
    exact ⟨fun _ => Or.inr h5, fun _ => ⟨_, h4⟩⟩
  · refine ⟨by rw [h3]; exact min_le_left _ _, by rw [h2]; simp, ?_, by rw [h2]; simp; omega, fun _ => ⟨h2, h3⟩⟩
    constructor
    · rintro ⟨k, hk⟩; rw [h4] at hk; cases hk
    · rintro (h | h)
      · omega
      · linarith

/-- C29: `run` is over after at most `max_loop` calls of the weak learner -- whatever the solver answers. -/
theorem erlp_terminates (S : Examples X ℝ) (s₀ : ERLPBoost H) (hn : s₀.nSample = S.length) (solver : Solver ℝ) (fuel : Nat)
    (wl : WeakLearner ℝ H) :
    ∃ r, (ERLPBoost.booster solver fuel S).run wl (erlpLimit S s₀ + 1) s₀ = some r ∧
      ∀ f qs, r = .ok (f, qs) → qs.length ≤ erlpLimit S s₀ := by
  obtain ⟨r, hr⟩ := (ERLPBoost.booster solver fuel S).run_terminates wl s₀ (erlpLimit S s₀) (by
    intro qs s out hr hb hf
    obtain ⟨-, -, h, -⟩ := erlp_stopping S s₀ hn solver fuel wl _ qs s hr out hb
    obtain ⟨k, hk⟩ := h.2 (Or.inl rfl)
    rw [hk] at hf; cases hf)
  refine ⟨r, hr, ?_⟩
  rintro f qs rfl
  obtain ⟨n, qs', s', out, k, h1, h2, h3, h4, h5, h6⟩ := (ERLPBoost.booster solver fuel S).run_spec wl s₀ hr
  have hi := er_inv hn h1
  obtain ⟨-, g1, -, g2, -⟩ := erlp_stopping S s₀ hn solver fuel wl n qs' s' h1 out h3
  rw [h5, List.length_append, hi.qlen]
  have := hi.le
  by_cases c : n = erlpLimit S s₀
  · rw [g2.2 c]; simp [c]
  · omega

/-! ## The programs and the distributions -/

/-- With a solver that does its job. -/
theorem er_holds {S : Examples X ℝ} {s₀ : ERLPBoost H} (hn : s₀.nSample = S.length) {solver : Solver ℝ}
    (hsolver : solver.Correct) {fuel : Nat} {wl : WeakLearner ℝ H} {n : Nat} {qs : List (List ℝ)} {s : ERLPBoost H}
    (hr : (ERLPBoost.booster solver fuel S).Reachable wl s₀ n qs s) :
    s.dist.length = S.length ∧ Spec.IsCapped s₀.nu s.dist ∧
      ∃ m, s.qpModel = some m ∧ ERLP.Holds m S s.hypotheses s₀.nu ∧ m.eta = erlpEta S s₀ := by
  have huni : ∀ nu : ℝ, 1 ≤ nu → nu ≤ S.length → Spec.IsCapped nu (List.replicate S.length (1 / (S.length : ℝ))) := by
    intro nu h1 h2
    have hpos : (0 : ℝ) < S.length := by linarith
    refine ⟨fun p hp => ?_, ?_⟩
    · rw [List.eq_of_mem_replicate hp]
      exact ⟨by positivity, one_div_le_one_div_of_le (by linarith) h2⟩
    · rw [List.sum_replicate, nsmul_eq_mul]; field_simp
  induction hr with
  | start h =>
    have hi := er_start hn h
    obtain ⟨m, hm, he, hm0, -⟩ := hi.model
    rw [hi.uni rfl]
    refine ⟨by simp, huni _ hi.nu1 hi.nu2, m, hm, ?_, he⟩
    rw [hm0 rfl, List.length_eq_zero_iff.1 hi.hlen]
    exact ⟨rfl, rfl, by rw [rowsOf_nil]; rfl, rfl, by simp [ERLP.QPModel.init]⟩
  | @step n qs s₁ out hr hb hf ih =>
    have hi := er_inv hn hr
    rcases er_step hi wl hb with ⟨-, h, -⟩ | ⟨h1, h2, h3, ⟨h, -⟩ | ⟨-, h4, h5, m, m', h6, h7, h8, h9⟩⟩
    · rw [h] at hf; cases hf
    · rw [h] at hf; cases hf
    obtain ⟨i1, i2, m₀, i3, i4, i5⟩ := ih
    rw [h6, Option.some.injEq] at i3
    subst i3
    have hS : S ≠ [] := checkBinary_ne_nil hi.bin
    unfold ERLP.QPModel.update at h7
    have hd1 : m.dist.map (fun _ => 1 / (m.nExamples : ℝ)) = List.replicate S.length (1 / (S.length : ℝ)) := by
      rw [List.map_const', i4.dlen, i4.nEx]
    set m₁ : ERLP.QPModel := { m with nHypotheses := m.nHypotheses + 1, rows := pushMargins m.rows (margins S (wl (n + 1) s₁.dist))
                                      dist := m.dist.map fun _ => 1 / (m.nExamples : ℝ) } with hm₁
    have key := ERLP.solveLoop_sound (hs := s₁.hypotheses ++ [wl (n + 1) s₁.dist]) (nu := s₀.nu) hS (by simp) hi.nu1 hi.nu2
      hsolver fuel m₁ m' 1000 ⟨i4.nEx, by simp [hm₁, i4.nHyp], by simp only [hm₁, i4.rows, pushMargins_rowsOf], i4.cap, by simp [hm₁, i4.dlen]⟩
      (by show 0 < m.eta; rw [i5]; unfold erlpEta; exact lt_of_lt_of_le (by norm_num) (le_max_left _ _))
      (by show Spec.IsCapped s₀.nu (m.dist.map fun _ => 1 / (m.nExamples : ℝ)); rw [hd1]; exact huni _ hi.nu1 hi.nu2) h7
    obtain ⟨k1, k2, k3⟩ := key
    rw [h9]
    refine ⟨k1.dlen, k3, m', h8, ?_, ?_⟩
    · rw [h5]; exact k1
    · rw [k2]; exact i5

/-- C28: every weight vector that ERLPBoost hands to the weak learner is a probability vector with entries at most
`1/ν`. -/
theorem erlp_queries_capped (S : Examples X ℝ) (s₀ : ERLPBoost H) (hn : s₀.nSample = S.length) (solver : Solver ℝ)
    (hsolver : solver.Correct) (fuel : Nat) (wl : WeakLearner ℝ H) (n : Nat) (qs : List (List ℝ)) (s : ERLPBoost H)
    (hr : (ERLPBoost.booster solver fuel S).Reachable wl s₀ n qs s) (out : BoostOut (ERLPBoost H) ℝ)
    (hb : (ERLPBoost.booster solver fuel S).boost s wl (n + 1) = .ok out) :
    ∀ d ∈ out.queries, d.length = S.length ∧ Spec.IsCapped s₀.nu d := by
  intro d hd
  obtain ⟨-, -, -, -, h⟩ := erlp_stopping S s₀ hn solver fuel wl n qs s hr out hb
  have := (h (List.ne_nil_of_mem hd)).1
  rw [this, List.mem_singleton] at hd
  rw [hd]
  have := er_holds hn hsolver hr
  exact ⟨this.1, this.2.1⟩

theorem quadPen_taylor (c d : List ℝ) (n : Nat) (hc : c.length = n) (hd : d.length = n) (hpos : ∀ q ∈ c, 0 < q) (η : ℝ)
    (hη : 0 < η) :
    quadPen n (fun i => log (c.getD i 0) / η) (fun i => 1 / (c.getD i 0 * η)) d =
      Spec.entropyTaylor c d / η + (c.sum / 2) / η := by
  have h1 : quadPen n (fun i => log (c.getD i 0) / η) (fun i => 1 / (c.getD i 0 * η)) d =
      (∑ i ∈ Finset.range n, (log (c.getD i 0) * d.getD i 0 + d.getD i 0 ^ 2 / (2 * c.getD i 0))) / η := by
    unfold quadPen
    rw [Finset.sum_div]
    apply Finset.sum_congr rfl
    intro i hi
    have : 0 < c.getD i 0 := hpos _ (getD_mem c i (by rw [hc]; exact Finset.mem_range.1 hi))
    field_simp
  rw [h1, ← add_div]
  congr 1
  unfold Spec.entropyTaylor
  clear h1
  induction c generalizing d n with
  | nil => simp at hc; subst hc; simp
  | cons a c ih =>
    cases d with
    | nil => simp at hd; subst hd; simp at hc
    | cons b d =>
      obtain ⟨n, rfl⟩ : ∃ k, n = k + 1 := ⟨n - 1, by simp at hc; omega⟩
      rw [Finset.sum_range_succ']
      simp only [List.getD_cons_succ, List.getD_cons_zero, List.zip_cons_cons, List.map_cons, List.sum_cons]
      rw [ih d n (by simpa using hc) (by simpa using hd) (fun q hq => hpos q (by simp [hq]))]
      have ha : 0 < a := hpos a (by simp)
      field_simp
      ring

theorem holds_erlpProgram {m : ERLP.QPModel} {S : Examples X ℝ} {hs : List H} {nu : ℝ} (hm : ERLP.Holds m S hs nu)
    (hd : ∀ q ∈ m.dist, 0 ≤ q) (heta : 0 < m.eta) :
    Spec.ErlpProgram S hs nu m.eta (m.dist.map fun q => q + ERLP.eps) (m.program m.dist) := by
  have hg := hm.isGamma
  refine ⟨⟨?_, ?_, ?_, ?_, ?_⟩, hg.nCols, ((m.dist.map fun q => q + ERLP.eps).sum / 2) / m.eta, fun γ d => ⟨?_, fun hl => ?_⟩⟩
  · rw [hg.A]; exact gamma_wellFormed S hs 1
  · rw [hg.qlen, hg.nCols]
  · rw [hg.pcols, hg.nCols]
  · rw [hg.rhs, hg.nRows]; simp [rhsOf]; omega
  · rw [hg.cones, hg.nRows]; simp [senseOf, Program.isEq]; omega
  · rw [hg.feasible_iff]
    constructor
    · rintro ⟨h1, h2, h3, h4⟩
      exact ⟨h1, ⟨fun p hp => ⟨h2.1 p hp, by have := h3 p hp; linarith⟩, h2.2⟩, h4⟩
    · rintro ⟨h1, h2, h4⟩
      exact ⟨h1, ⟨fun p hp => (h2.1 p hp).1, h2.2⟩, fun p hp => by have := (h2.1 p hp).2; linarith, h4⟩
  · rw [hg.objective_eq γ d hl]
    have h1 := quadPen_taylor (m.dist.map fun q => q + ERLP.eps) d S.length (by simp [hm.dlen]) hl (by
      intro q hq
      obtain ⟨p, hp, rfl⟩ := List.mem_map.1 hq
      have := hd p hp
      have := ERLP.eps_pos
      linarith) m.eta heta
    have h2 : quadPen S.length (fun i => log ((m.dist.map fun q => q + ERLP.eps).getD i 0) / m.eta)
        (fun i => 1 / ((m.dist.map fun q => q + ERLP.eps).getD i 0 * m.eta)) d =
        quadPen S.length (fun i => log (m.dist.getD i 0 + ERLP.eps) / m.eta)
        (fun i => 1 / ((m.dist.getD i 0 + ERLP.eps) * m.eta)) d := by
      unfold quadPen
      apply Finset.sum_congr rfl
      intro i hi
      have : (m.dist.map fun q => q + ERLP.eps).getD i 0 = m.dist.getD i 0 + ERLP.eps := by
        have := Finset.mem_range.1 hi
        simp [List.getD_eq_getElem?_getD, hm.dlen, this]
      simp only [this]
    rw [← h2, h1]
    ring

theorem solveLoop_agree {S : Examples X ℝ} {hs : List H} {nu η : ℝ} (hS : S ≠ []) (hhs : hs ≠ []) (hnu1 : 1 ≤ nu)
    (hnu2 : nu ≤ S.length) {solver solver' : Solver ℝ} (hsolver : solver.Correct) (hη : 0 < η)
    (hagree : ∀ p c, c.length = S.length → (∀ q ∈ c, 0 < q) → Spec.ErlpProgram S hs nu η c p → solver' p = solver p)
    (fuel : Nat) (m : ERLP.QPModel) (old : ℝ) (hm : ERLP.Holds m S hs nu) (heta : m.eta = η) (hd : Spec.IsCapped nu m.dist) :
    ERLP.QPModel.solveLoop solver' fuel m old = ERLP.QPModel.solveLoop solver fuel m old := by
  induction fuel generalizing m old with
  | zero => rfl
  | succ fuel ih =>
    have heq : solver' (m.program m.dist) = solver (m.program m.dist) := by
      refine hagree _ (m.dist.map fun q => q + ERLP.eps) (by simp [hm.dlen]) ?_ ?_
      · intro q hq
        obtain ⟨p, hp, rfl⟩ := List.mem_map.1 hq
        have := (hd.1 p hp).1
        have := ERLP.eps_pos
        linarith
      · rw [← heta]
        exact holds_erlpProgram hm (fun q hq => (hd.1 q hq).1) (by rw [heta]; exact hη)
    obtain ⟨-, γ, d, h1, h2, h3, h4, -, h5, h6, -, -⟩ := ERLP.step_optimal hm hS hhs hnu1 hnu2 (by rw [heta]; exact hη) hd hsolver
    simp only [ERLP.QPModel.solveLoop, heq]
    have hdist : ((solver (m.program m.dist)).x.drop 1).map (fun d => max d 0) = d := by
      rw [h1, List.drop_one, List.tail_cons]
      exact ERLP.map_max_self d fun p hp => (h4.1 p hp).1
    rw [hdist]
    rw [ih { m with dist := d, weights := ((solver (m.program m.dist)).z.drop (1 + 2 * m.nExamples)).map fun d => max d 0 } _
      ⟨hm.nEx, hm.nHyp, hm.rows, hm.cap, h3⟩ heta h4]

/-- C28: the only programs that ERLPBoost hands to the solver are those of the paper: minimise `γ` plus `1/η` times
the second-order expansion (at some positive vector) of the negative entropy of `d`, over the pairs `(γ, d)` with
`d` a probability vector with entries at most `1/ν` and all edges of the collected hypotheses at most `γ`.
(Formally: changing the solver on any other program does not change what `boost` does.) -/
theorem erlp_programs (S : Examples X ℝ) (s₀ : ERLPBoost H) (hn : s₀.nSample = S.length) (solver : Solver ℝ)
    (hsolver : solver.Correct) (fuel : Nat) (wl : WeakLearner ℝ H) (n : Nat) (qs : List (List ℝ)) (s : ERLPBoost H)
    (hr : (ERLPBoost.booster solver fuel S).Reachable wl s₀ n qs s) (solver' : Solver ℝ)
    (hagree : ∀ p c, c.length = S.length → (∀ q ∈ c, 0 < q) →
      Spec.ErlpProgram S (s.hypotheses ++ [wl (n + 1) s.dist]) s₀.nu (erlpEta S s₀) c p → solver' p = solver p) :
    (ERLPBoost.booster solver' fuel S).boost s wl (n + 1) = (ERLPBoost.booster solver fuel S).boost s wl (n + 1) := by
  have hi := er_inv hn hr
  obtain ⟨h1, h2, m, h3, h4, h5⟩ := er_holds hn hsolver hr
  have hS : S ≠ [] := checkBinary_ne_nil hi.bin
  have hη : 0 < erlpEta S s₀ := by unfold erlpEta; exact lt_of_lt_of_le (by norm_num) (le_max_left _ _)
  have hupd : m.update solver' fuel S (wl (n + 1) s.dist) = m.update solver fuel S (wl (n + 1) s.dist) := by
    unfold ERLP.QPModel.update
    have hd1 : m.dist.map (fun _ => 1 / (m.nExamples : ℝ)) = List.replicate S.length (1 / (S.length : ℝ)) := by
      rw [List.map_const', h4.dlen, h4.nEx]
    refine solveLoop_agree hS (by simp) hi.nu1 hi.nu2 hsolver hη hagree fuel
      { m with nHypotheses := m.nHypotheses + 1, rows := pushMargins m.rows (margins S (wl (n + 1) s.dist))
               dist := m.dist.map fun _ => 1 / (m.nExamples : ℝ) } 1000
      ⟨h4.nEx, by simp [h4.nHyp], by simp only [h4.rows, pushMargins_rowsOf], h4.cap, by simp [h4.dlen]⟩ h5 ?_
    show Spec.IsCapped s₀.nu (m.dist.map fun _ => 1 / (m.nExamples : ℝ))
    rw [hd1]
    have hpos : (0 : ℝ) < S.length := by exact_mod_cast List.length_pos_iff.2 hS
    refine ⟨fun p hp => ?_, ?_⟩
    · rw [List.eq_of_mem_replicate hp]
      exact ⟨by positivity, one_div_le_one_div_of_le (by linarith [hi.nu1]) hi.nu2⟩
    · rw [List.sum_replicate, nsmul_eq_mul]; field_simp
  simp only [ERLPBoost.booster, ERLPBoost.boost, h3, hupd]

/-- C28: the programs always have an optimal primal-dual pair, so a correct solver answers them. -/
theorem erlp_solver_answers (S : Examples X ℝ) (hS : S ≠ []) (hs : List H) (hhs : hs ≠ []) (nu : ℝ) (hnu1 : 1 ≤ nu)
    (hnu2 : nu ≤ S.length) (m : ERLP.QPModel) (hm : ERLP.Holds m S hs nu) (heta : 0 < m.eta) (hd : Spec.IsCapped nu m.dist)
    (solver : Solver ℝ) (hsolver : solver.Correct) : (m.program m.dist).Optimal (solver (m.program m.dist)) := by
  obtain ⟨⟨s, hs'⟩, -⟩ := ERLP.step_optimal hm hS hhs hnu1 hnu2 heta hd hsolver
  exact hsolver _ s hs'

theorem er_weights {S : Examples X ℝ} {s₀ : ERLPBoost H} (hn : s₀.nSample = S.length) {solver : Solver ℝ}
    (hsolver : solver.Correct) (hrep : solver.Reports) {fuel : Nat} (hfuel : ERLP.enough S.length ≤ fuel) {wl : WeakLearner ℝ H}
    (hb : ∀ k d, ∀ e ∈ S, |e.2 * conf (wl k d) e.1| ≤ (1 : ℝ)) {n : Nat} {qs : List (List ℝ)} {s : ERLPBoost H}
    (hr : (ERLPBoost.booster solver fuel S).Reachable wl s₀ n qs s) :
    (∀ h ∈ s.hypotheses, ∃ k d, h = wl k d) ∧ (0 < n → ∃ m, s.qpModel = some m ∧ m.weights.length = s.hypotheses.length ∧ Spec.IsProb m.weights) := by
  induction hr with
  | start h => have hi := er_start hn h; rw [List.length_eq_zero_iff.1 hi.hlen]; simp
  | @step n qs s₁ out hr hbo hf ih =>
    have hi := er_inv hn hr
    rcases er_step hi wl hbo with ⟨-, h, -⟩ | ⟨h1, h2, h3, ⟨h, -⟩ | ⟨-, h4, h5, m, m', h6, h7, h8, h9⟩⟩
    · rw [h] at hf; cases hf
    · rw [h] at hf; cases hf
    have hh : ∀ h ∈ s₁.hypotheses ++ [wl (n + 1) s₁.dist], ∃ k d, h = wl k d := by
      intro h hh
      rcases List.mem_append.1 hh with hh | hh
      · exact ih.1 h hh
      · rw [List.mem_singleton] at hh; exact ⟨_, _, hh⟩
    refine ⟨by rw [h5]; exact hh, fun _ => ⟨m', h8, ?_⟩⟩
    obtain ⟨i1, i2, m₀, i3, i4, i5⟩ := er_holds hn hsolver hr
    rw [h6, Option.some.injEq] at i3
    subst i3
    obtain ⟨m'', u1, u2, u3⟩ := ERLP.update_total (checkBinary_ne_nil hi.bin) hi.nu1 hi.nu2 hsolver hrep (wl (n + 1) s₁.dist)
      (fun h hm => by obtain ⟨k, d, rfl⟩ := hh h hm; exact hb k d) fuel m i4 (by rw [i5]; exact le_max_left _ _) hfuel
    rw [h7, Except.ok.injEq] at u1
    subst u1
    rw [h5]
    exact ⟨by simp [u2], u3⟩

/-- C28: no round panics and the inner optimisation loop always ends (a correct solver that reports success when
there is a solution, labels and confidences bounded by 1; the loop needs at most `enough` rounds). -/
theorem erlp_no_panic (S : Examples X ℝ) (s₀ : ERLPBoost H) (hn : s₀.nSample = S.length) (solver : Solver ℝ)
    (hsolver : solver.Correct) (hrep : solver.Reports) (fuel : Nat) (hfuel : ERLP.enough S.length ≤ fuel) (wl : WeakLearner ℝ H)
    (hb : ∀ k d, ∀ e ∈ S, |e.2 * conf (wl k d) e.1| ≤ (1 : ℝ)) (n : Nat) (qs : List (List ℝ)) (s : ERLPBoost H)
    (hr : (ERLPBoost.booster solver fuel S).Reachable wl s₀ n qs s) :
    ∃ out, (ERLPBoost.booster solver fuel S).boost s wl (n + 1) = .ok out := by
  have hi := er_inv hn hr
  obtain ⟨i1, i2, m, i3, i4, i5⟩ := er_holds hn hsolver hr
  have hw := er_weights hn hsolver hrep hfuel hb hr
  obtain ⟨m', u1, u2, u3⟩ := ERLP.update_total (checkBinary_ne_nil hi.bin) hi.nu1 hi.nu2 hsolver hrep (wl (n + 1) s.dist)
    (fun h hm => by
      rcases List.mem_append.1 hm with hm | hm
      · obtain ⟨k, d, rfl⟩ := hw.1 h hm; exact hb k d
      · rw [List.mem_singleton] at hm; rw [hm]; exact hb _ _) fuel m i4 (by rw [i5]; exact le_max_left _ _) hfuel
  obtain ⟨g, hg⟩ := newGammaStar_ok S s.eta m'.dist (s.hypotheses ++ [wl (n + 1) s.dist]) (by simp)
  simp only [ERLPBoost.booster, ERLPBoost.boost, i3, u1, hg]
  split
  · exact ⟨_, rfl⟩
  · split
    · exact ⟨_, rfl⟩
    · exact ⟨_, rfl⟩

/-- C28, C61: `run` returns a convex combination of weak hypotheses, provided the first hypothesis has an edge above
`-1 + tolerance/2` under the uniform distribution. -/
theorem erlp_returns_uniform (S : Examples X ℝ) (s₀ : ERLPBoost H) (hn : s₀.nSample = S.length) (hbin : checkBinary S = .ok ())
    (htol : 0 < s₀.halfTolerance) (htol1 : s₀.halfTolerance < 1) (hnu1 : 1 ≤ s₀.nu) (hnu2 : s₀.nu ≤ S.length)
    (solver : Solver ℝ) (hsolver : solver.Correct) (hrep : solver.Reports) (fuel : Nat) (hfuel : ERLP.enough S.length ≤ fuel)
    (wl : WeakLearner ℝ H) (hb : ∀ k d, ∀ e ∈ S, |e.2 * conf (wl k d) e.1| ≤ (1 : ℝ))
    (hfirst : s₀.halfTolerance - 1 < Spec.edge S (List.replicate S.length (1 / (S.length : ℝ)))
      (conf (wl 1 (List.replicate S.length (1 / (S.length : ℝ)))))) :
    ∃ f qs, (ERLPBoost.booster solver fuel S).run wl (erlpLimit S s₀ + 1) s₀ = some (.ok (f, qs)) ∧ Spec.IsProb f.weights ∧
      ∀ h ∈ f.hypotheses, ∃ k d, h = wl k d := by
  obtain ⟨r, hr, -⟩ := erlp_terminates S s₀ hn solver fuel wl
  obtain ⟨s1, hs1⟩ := (erlp_preprocess_iff S s₀ hn).2 ⟨hbin, htol, htol1, hnu1, hnu2⟩
  unfold Booster.run at hr ⊢
  rw [show (ERLPBoost.booster solver fuel S).preprocess s₀ wl = .ok s1 from hs1] at hr ⊢
  simp only at hr ⊢
  cases hl : (ERLPBoost.booster solver fuel S).loop wl (erlpLimit S s₀ + 1) s1 1 with
  | none => rw [hl] at hr; simp at hr
  | some r' =>
    rcases (ERLPBoost.booster solver fuel S).loop_spec wl s₀ (Booster.Reachable.start (B := ERLPBoost.booster solver fuel S)
      (wl := wl) (s := s₀) hs1) hl with ⟨n', qs', s', h1, h2, e, h3, h4⟩ | ⟨n', qs', s', out, k, h1, h2, h3, h4, qs, h5, h6⟩
    · obtain ⟨out, g1⟩ := erlp_no_panic S s₀ hn solver hsolver hrep fuel hfuel wl hb n' qs' s' h1
      rw [g1] at h3; cases h3
    · rw [h6]
      simp only
      have hi := er_inv hn h1
      have hlim : 0 < erlpLimit S s₀ := by
        unfold erlpLimit
        rw [Nat.ceil_pos]
        exact lt_of_lt_of_le (by positivity) (le_max_left _ _)
      -- the first round does not stop
      have hpos : 0 < n' := by
        rcases Nat.eq_zero_or_pos n' with h0 | h0
        · exfalso
          subst h0
          rcases er_step hi wl h3 with ⟨g1, -⟩ | ⟨-, -, g2, ⟨-, g3, -⟩ | ⟨g1, -⟩⟩
          · omega
          · rw [hi.star0 rfl, g2] at g3
            have hd := er_holds hn hsolver h1
            have e1 := hfirst
            rw [← hi.uni rfl] at e1
            have e2 : Spec.edge S s'.dist (conf (wl 1 s'.dist)) ≤ Spec.smoothedEdge S (erlpEta S s₀) s'.dist (conf (wl 1 s'.dist)) := by
              unfold Spec.smoothedEdge
              rw [← entropyFromUni_spec]
              have := (entropyFromUni_bounds s'.dist ⟨fun p hp => (hd.2.1.1 p hp).1, hd.2.1.2⟩).1
              have : 0 ≤ entropyFromUni s'.dist / erlpEta S s₀ := div_nonneg this (le_trans (by norm_num) (le_max_left _ _))
              linarith
            have e3 : s'.gammaHat = 1 := by
              have := hi.hat_mem
              rw [List.length_eq_zero_iff.1 hi.hlen] at this
              simpa [smoothedEdges] using this
            rw [e3] at g3
            rcases min_choice (1 : ℝ) (Spec.smoothedEdge S (erlpEta S s₀) s'.dist (conf (wl (0 + 1) s'.dist))) with hc | hc
            · rw [hc] at g3; linarith
            · rw [hc] at g3
              simp only [Nat.zero_add] at g3
              linarith
          · rw [g1] at h4; cases h4
        · exact h0
      have hw := er_weights hn hsolver hrep hfuel hb h1
      obtain ⟨m, hm, hm1, hm2⟩ := hw.2 hpos
      obtain ⟨q1, q2⟩ : out.state.hypotheses = s'.hypotheses ∧ out.state.qpModel = s'.qpModel := by
        rcases er_step hi wl h3 with ⟨-, -, -, g1⟩ | ⟨-, -, g2, ⟨-, -, g3, g4⟩ | ⟨g1, -⟩⟩
        · rw [g1]; exact ⟨rfl, rfl⟩
        · exact ⟨g3, g4⟩
        · rw [g1] at h4; cases h4
      obtain ⟨f, hf, hf2, hf3⟩ := fromSlices_prob (X := X) m.weights s'.hypotheses hm1 hm2
      have hpost : (ERLPBoost.booster solver fuel S).postprocess out.state = .ok f := by
        simp only [ERLPBoost.booster, ERLPBoost.postprocess, q2, hm, q1]; exact hf
      refine ⟨f, qs, by rw [hpost], hf3, ?_⟩
      intro h hh
      rcases fromSlices_cases m.weights s'.hypotheses with ⟨h1', h2'⟩ | ⟨h1', h2'⟩
      · rw [hf] at h2'; cases h2'
      · rw [hf, Except.ok.injEq] at h2'
        rw [h2'] at hh
        simp only [List.mem_map] at hh
        obtain ⟨p, hp, rfl⟩ := hh
        exact hw.1 _ (List.of_mem_zip (List.mem_of_mem_filter hp)).2

/-- `run` returns a convex combination of weak hypotheses, provided the first hypothesis has an edge above
`-1 + tolerance/2` under every capped distribution. -/
theorem erlp_returns (S : Examples X ℝ) (s₀ : ERLPBoost H) (hn : s₀.nSample = S.length) (hbin : checkBinary S = .ok ())
    (htol : 0 < s₀.halfTolerance) (htol1 : s₀.halfTolerance < 1) (hnu1 : 1 ≤ s₀.nu) (hnu2 : s₀.nu ≤ S.length)
    (solver : Solver ℝ) (hsolver : solver.Correct) (hrep : solver.Reports) (fuel : Nat) (hfuel : ERLP.enough S.length ≤ fuel)
    (wl : WeakLearner ℝ H) (hb : ∀ k d, ∀ e ∈ S, |e.2 * conf (wl k d) e.1| ≤ (1 : ℝ))
    (hfirst : ∀ d, d.length = S.length → Spec.IsCapped s₀.nu d → s₀.halfTolerance - 1 < Spec.edge S d (conf (wl 1 d))) :
    ∃ f qs, (ERLPBoost.booster solver fuel S).run wl (erlpLimit S s₀ + 1) s₀ = some (.ok (f, qs)) ∧ Spec.IsProb f.weights ∧
      ∀ h ∈ f.hypotheses, ∃ k d, h = wl k d := by
  have hS : (0 : ℝ) < S.length := by linarith
  refine erlp_returns_uniform S s₀ hn hbin htol htol1 hnu1 hnu2 solver hsolver hrep fuel hfuel wl hb (hfirst _ (by simp) ⟨?_, ?_⟩)
  · intro p hp
    rw [List.eq_of_mem_replicate hp]
    exact ⟨by positivity, one_div_le_one_div_of_le (by linarith) hnu2⟩
  · rw [List.sum_replicate, nsmul_eq_mul]; field_simp

/-- C61, a disagreement: if the first hypothesis is so bad (edge at most `-1 + tolerance/2` under the uniform
distribution) that the first round stops, `run` panics instead of returning. -/
theorem erlp_first_round_stop_panics (S : Examples X ℝ) (s₀ : ERLPBoost H) (hn : s₀.nSample = S.length) (solver : Solver ℝ)
    (fuel : Nat) (wl : WeakLearner ℝ H) (s : ERLPBoost H) (hpre : (ERLPBoost.booster solver fuel S).preprocess s₀ wl = .ok s)
    (hbad : Spec.edge S (List.replicate S.length (1 / (S.length : ℝ))) (conf (wl 1 (List.replicate S.length (1 / (S.length : ℝ))))) ≤
      -1 + s₀.halfTolerance) (k : Nat) :
    ∃ e, (ERLPBoost.booster solver fuel S).run wl (k + 1) s₀ = some (.error e) := by
  have hi := er_start hn hpre
  have hd := hi.uni rfl
  have hS := checkBinary_ne_nil hi.bin
  have hpos : (0 : ℝ) < S.length := by exact_mod_cast List.length_pos_iff.2 hS
  have hlim : ¬ erlpLimit S s₀ < 1 := by
    have : 0 < erlpLimit S s₀ := by
      unfold erlpLimit
      rw [Nat.ceil_pos]
      have := hi.tol0
      exact lt_of_lt_of_le (by positivity) (le_max_left _ _)
    omega
  have hent : entropyFromUni (List.replicate S.length (1 / (S.length : ℝ))) = 0 := by
    have hp : Spec.IsProb (List.replicate S.length (1 / (S.length : ℝ))) := by
      refine ⟨fun p hp => ?_, ?_⟩
      · rw [List.eq_of_mem_replicate hp]; positivity
      · rw [List.sum_replicate, nsmul_eq_mul]; field_simp
    exact (entropyFromUni_bounds _ hp).2.1.2 (by simp)
  have hstop : min s.gammaHat (ERLPBoost.objval S s.eta s.dist (wl 1 s.dist)) - s.gammaStar ≤ s.halfTolerance := by
    rw [hi.star0 rfl, hi.tol, hd]
    unfold ERLPBoost.objval
    rw [edge_eq_spec, hent, zero_div, add_zero]
    have := min_le_right s.gammaHat (Spec.edge S (List.replicate S.length (1 / (S.length : ℝ)))
      (conf (wl 1 (List.replicate S.length (1 / (S.length : ℝ))))))
    linarith
  obtain ⟨m, hm, -, hm0, -⟩ := hi.model
  have hw : m.weights = [] := by rw [hm0 rfl]; rfl
  have hh : s.hypotheses = [] := List.length_eq_zero_iff.1 hi.hlen
  have hb : (ERLPBoost.booster solver fuel S).boost s wl 1 =
      .ok { state := { s with gammaHat := min s.gammaHat (ERLPBoost.objval S s.eta s.dist (wl 1 s.dist)), terminated := 1 }
            flow := .brk 1, queries := [s.dist] } := by
    simp only [ERLPBoost.booster, ERLPBoost.boost]
    rw [hi.maxIter, if_neg hlim, if_pos hstop]
  unfold Booster.run
  rw [hpre]
  simp only [Booster.loop, hb]
  simp only [ERLPBoost.booster, ERLPBoost.postprocess, hm, hw, hh]
  rcases fromSlices_cases ([] : List ℝ) ([] : List H) with ⟨h1, h2⟩ | ⟨h1, h2⟩
  · rw [h2]; exact ⟨_, rfl⟩
  · simp at h1

/-- C52: the outcome of `run` depends only on the parameters, not on what earlier runs left behind. -/
theorem erlp_history_independent (S : Examples X ℝ) (s t : ERLPBoost H) (solver : Solver ℝ) (fuel : Nat) (wl : WeakLearner ℝ H)
    (k : Nat) (hnu : s.nu = t.nu) (htol : s.halfTolerance = t.halfTolerance) (hn : s.nSample = t.nSample)  :
    (ERLPBoost.booster solver fuel S).run wl k s = (ERLPBoost.booster solver fuel S).run wl k t := by
  refine (ERLPBoost.booster solver fuel S).run_congr wl (fun a b => { a with weights := [] } = { b with weights := [] }) ?_ ?_ s t ?_ k
  · rintro ⟨a1, a2, a3, a4, a5, a6, a7, a8, a9, a10, a11, a12⟩ ⟨b1, b2, b3, b4, b5, b6, b7, b8, b9, b10, b11, b12⟩ it h
    simp only [ERLPBoost.mk.injEq, true_and] at h
    obtain ⟨rfl, rfl, rfl, rfl, rfl, rfl, rfl, rfl, rfl, rfl, rfl⟩ := h
    simp only [ERLPBoost.booster, ERLPBoost.boost]
    by_cases c1 : a12 < it
    · simp only [if_pos c1]; right; exact ⟨_, _, rfl, rfl, rfl, rfl, rfl⟩
    simp only [if_neg c1]
    by_cases c2 : min a2 (ERLPBoost.objval S a4 a1 (wl it a1)) - a3 ≤ a5
    · simp only [if_pos c2]; right; exact ⟨_, _, rfl, rfl, rfl, rfl, rfl⟩
    simp only [if_neg c2]
    cases a6 with
    | none => left; exact ⟨_, rfl, rfl⟩
    | some m =>
      simp only
      cases hu : m.update solver fuel S (wl it a1) with
      | error e => left; exact ⟨e, by simp, by simp⟩
      | ok m' =>
        simp only
        cases hg : ERLPBoost.newGammaStar S a4 m'.dist (a7 ++ [wl it a1]) with
        | error e => left; exact ⟨e, by simp, by simp⟩
        | ok g => right; exact ⟨_, _, rfl, rfl, rfl, rfl, rfl⟩
  · rintro a b h
    simp only [ERLPBoost.mk.injEq, true_and] at h
    simp only [ERLPBoost.booster, ERLPBoost.postprocess, h.2.2.2.2.2.1, h.2.2.2.2.2.2.1]
  · simp only [ERLPBoost.booster, ERLPBoost.preprocess, ERLPBoost.initSolver, ERLPBoost.regularizationParam, ERLPBoost.maxLoop, hnu, hn, htol]
    cases checkBinary S with
    | error e => left; exact ⟨e, rfl, rfl⟩
    | ok _ =>
      simp only
      by_cases c1 : 0 ≤ t.halfTolerance ∧ t.halfTolerance < 1
      · simp only [if_pos c1]
        by_cases c2 : t.halfTolerance = 0
        · simp only [if_pos c2]; left; exact ⟨_, rfl, rfl⟩
        · simp only [if_neg c2]
          cases checkNu t.nu t.nSample with
          | error e => left; exact ⟨e, rfl, rfl⟩
          | ok _ => right; exact ⟨_, _, rfl, rfl, rfl⟩
      · simp only [if_neg c1]; left; exact ⟨_, rfl, rfl⟩

/-! ## Cases that meet the hypotheses -/

/-- There is a solver that is correct and reports success whenever there is something to find. -/
theorem exists_correct_reporting_solver : ∃ solver : Solver ℝ, solver.Correct ∧ solver.Reports := by
  classical
  have hst : ∀ (p : Program ℝ) (s : Solution ℝ), p.Optimal s → p.Optimal { s with status := .solved } :=
    fun p s h => ⟨h.feasible, h.zlen, h.dual, h.stationary, h.compl, h.value⟩
  refine ⟨fun p => if h : ∃ s, p.Optimal s then { h.choose with status := .solved } else ⟨[], [], 0, .other⟩, ?_, ?_⟩
  · intro p s hs
    have h : ∃ s, p.Optimal s := ⟨s, hs⟩
    simp only [dif_pos h]
    exact hst _ _ h.choose_spec
  · intro p s hs
    have h : ∃ s, p.Optimal s := ⟨s, hs⟩
    simp only [dif_pos h]
    exact Or.inl trivial

/-- ERLPBoost with `ν = 2` on the two-example sample. -/
noncomputable def exErlp : ERLPBoost (Fn Nat ℝ) :=
  regularizationParam { dist := [], gammaHat := 1, gammaStar := 0, eta := max (1 / 2) (Real.log (2 : ℝ) / (5 / 1000)), halfTolerance := 5 / 1000,
                        qpModel := none, hypotheses := [], weights := [], nSample := 2, nu := 2, terminated := 2 ^ 64 - 1,
                        maxIter := 2 ^ 64 - 1 }

/-- It is what `ERLPBoost::init(&sample).nu(2.0)` builds. -/
example : ∃ s, (ERLPBoost.init exSample : Except Panic (ERLPBoost (Fn Nat ℝ))) = .ok s ∧ s.setNu 2 = .ok exErlp := by
  refine ⟨_, by simp [ERLPBoost.init, exSample]; rfl, ?_⟩
  simp [ERLPBoost.setNu, exErlp]

/-- The constant hypothesis `+1` meets the assumptions on the weak learner: `run` returns. -/
example : ∃ (solver : Solver ℝ) (f : WeightedMajority ℝ (Fn Nat ℝ)) (qs : List (List ℝ)),
    (ERLPBoost.booster solver (ERLP.enough 2) exSample).run (fun _ _ => exOne) (erlpLimit exSample exErlp + 1) exErlp =
      some (.ok (f, qs)) := by
  obtain ⟨solver, h1, h2⟩ := exists_correct_reporting_solver
  obtain ⟨f, qs, h, -⟩ := erlp_returns exSample exErlp rfl exSample_valid (by norm_num [exErlp, regularizationParam])
    (by norm_num [exErlp, regularizationParam]) (by norm_num [exErlp, regularizationParam])
    (by norm_num [exErlp, regularizationParam, exSample]) solver h1 h2 (ERLP.enough 2) le_rfl (fun _ _ => exOne)
    (by
      intro k d e he
      simp only [exSample, List.mem_cons, List.not_mem_nil, or_false] at he
      rcases he with rfl | rfl <;> simp [conf, exOne])
    (by
      intro d hl hd
      obtain ⟨a, b, rfl⟩ : ∃ a b, d = [a, b] := by
        match d, hl with
        | [a, b], _ => exact ⟨a, b, rfl⟩
      have ha := hd.1 a (by simp)
      have hb := hd.1 b (by simp)
      have hs := hd.2
      simp [exErlp, regularizationParam] at ha hb hs ⊢
      simp [Spec.edge, exSample, conf, exOne]
      norm_num at *
      linarith)
  exact ⟨solver, f, qs, h⟩

end Miniboosts.Props
