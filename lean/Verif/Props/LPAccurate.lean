import Verif.Lemmas.Accurate
import Verif.Props.LPBoost

/-! # LPBoost with a solver of finite accuracy (C114) -/

namespace Miniboosts.Props

open LPBoost

/-! ## The notion of accuracy -/

/-- Sanity of the notion: a correct solver is one of accuracy 0, and accuracy is monotone. -/
theorem correct_accurate {K : Type*} [Field K] [LinearOrder K] [IsStrictOrderedRing K] (solver : Solver K)
    (h : solver.Correct) (ε : K) (hε : 0 ≤ ε) : solver.Accurate ε :=
  fun p s hp hs => Accurate.mono hε (Accurate.of_optimal hp (h p s hs))

variable {H X : Type*} [Classifier H X ℝ]

theorem accurate_answers (S : Examples X ℝ) (hS : S ≠ []) (nu : ℝ) (hnu : 1 ≤ nu) (hs : List H) (hhs : hs ≠ [])
    (solver : Solver ℝ) (ε : ℝ) (hsolver : solver.Accurate ε) :
    (LPBoost.program S nu hs).Accurate ε (solver (LPBoost.program S nu hs)) := by
  obtain ⟨s, hs'⟩ := LP.exists_optimal S hS nu hnu hs hhs
  exact hsolver _ s (LP.lp_wellFormed S nu hs) hs'

/-! ## Rounds -/

/-- What holds between rounds of a run started from `s₀`, with a solver of accuracy `ε`. -/
structure LPNear (S : Examples X ℝ) (ε : ℝ) (s₀ : LPBoost ℝ H) (n : Nat) (qs : List (List ℝ)) (s : LPBoost ℝ H) : Prop where
  ne : S ≠ []
  nu1 : 1 ≤ s₀.nu
  tol : s.tolerance = s₀.tolerance
  hlen : s.hypotheses.length = n
  qlen : qs.length = n
  dlen : s.dist.length = S.length
  dnear : Spec.NearProb ε s.dist
  model : ∃ m, s.lpModel = some m ∧ { m with weights := [], dist := [] } = LPModel.after S s₀.nu s.hypotheses ∧
    (1 ≤ n → ∃ γ, Spec.NearPair S s.hypotheses ε (s₀.nu * S.length + 1) s.dist m.weights γ ∧
      γ < s.gammaHat - s₀.tolerance)
  hat_le : s.gammaHat ≤ 1 ∧ ∀ g ∈ Spec.edges S conf qs s.hypotheses, s.gammaHat ≤ g
  hat_mem : s.gammaHat = 1 ∨ s.gammaHat ∈ Spec.edges S conf qs s.hypotheses

theorem near_of_prob {ε : ℝ} (hε : 0 ≤ ε) {d : List ℝ} (h : Spec.IsProb d) : Spec.NearProb ε d :=
  ⟨fun p hp => by linarith [h.1 p hp], by rw [h.2]; simpa using hε⟩

theorem lpn_start {S : Examples X ℝ} {ε : ℝ} (hε : 0 ≤ ε) {s₀ s : LPBoost ℝ H} (hn : s₀.nSample = S.length)
    (h : LPBoost.preprocess S s₀ = .ok s) : LPNear S ε s₀ 0 [] s := by
  have hi := lp_start hn h
  obtain ⟨m, h1, h2, -⟩ := hi.model
  exact ⟨hi.ne, hi.nu1, hi.tol, hi.hlen, hi.qlen, hi.dlen, near_of_prob hε hi.dprob, ⟨m, h1, h2, by simp⟩, hi.hat_le,
    hi.hat_mem⟩

/-- One call of `boost`. -/
theorem lpn_step {S : Examples X ℝ} {ε : ℝ} {s₀ s : LPBoost ℝ H} {n : Nat} {qs : List (List ℝ)}
    (hi : LPNear S ε s₀ n qs s) {solver : Solver ℝ} (hsolver : solver.Accurate ε) (wl : WeakLearner ℝ H) :
    ∃ out γ d w, LPBoost.boost solver S s wl (n + 1) = .ok out ∧ out.queries = [s.dist] ∧
      Spec.NearPair S (s.hypotheses ++ [wl (n + 1) s.dist]) ε (s₀.nu * S.length + 1) d w γ ∧
      out.state.hypotheses = s.hypotheses ++ [wl (n + 1) s.dist] ∧
      out.state.gammaHat = min (Spec.edge S s.dist (conf (wl (n + 1) s.dist))) s.gammaHat ∧
      (∃ m, out.state.lpModel = some m ∧ m.weights = w) ∧
      ((out.flow = .brk (n + 1) ∧ out.state.gammaHat - s₀.tolerance ≤ γ) ∨
       (out.flow = .cont ∧ γ < out.state.gammaHat - s₀.tolerance ∧ out.state.dist = d ∧
         LPNear S ε s₀ (n + 1) (qs ++ out.queries) out.state)) := by
  obtain ⟨m, hm, hma, hmn⟩ := hi.model
  set h := wl (n + 1) s.dist with hh
  have hma' := after_addColumn m h hma
  obtain ⟨hp1, hp2⟩ := after_program _ hma'
  have hopt := accurate_answers S hi.ne s₀.nu hi.nu1 (s.hypotheses ++ [h]) (by simp) solver ε hsolver
  set sol := solver (LPBoost.program S s₀.nu (s.hypotheses ++ [h])) with hsol
  obtain ⟨l1, l2, hpair⟩ := LP.accurate_pair S s₀.nu hi.nu1 _ ε sol hopt
  set m' : LPModel ℝ := { m.addColumn S h with weights := sol.x.drop (1 + S.length), dist := sol.z.take S.length } with hm'
  have hupd : m.update solver S h = .ok (m', -sol.objVal) := by
    unfold LPModel.update
    simp only [hp1, hp2, ← hsol]
    rw [if_neg (by omega), hm']
    simp only [hp2]
  have hedges : Spec.edges S conf (qs ++ [s.dist]) (s.hypotheses ++ [h]) =
      Spec.edges S conf qs s.hypotheses ++ [Spec.edge S s.dist (conf h)] :=
    edges_append S qs s.hypotheses (by rw [hi.qlen, hi.hlen]) s.dist h
  by_cases hstop : min (edge S s.dist h) s.gammaHat - s.tolerance ≤ -sol.objVal
  · refine ⟨_, -sol.objVal, _, _, by simp only [LPBoost.boost, hm, ← hh, hupd]; rw [if_pos hstop], rfl, hpair, rfl,
      by simp only [edge_eq_spec], ⟨_, rfl, rfl⟩, Or.inl ⟨rfl, ?_⟩⟩
    simp only []; rw [← hi.tol]; exact hstop
  · refine ⟨_, -sol.objVal, _, _, by simp only [LPBoost.boost, hm, ← hh, hupd]; rw [if_neg hstop], rfl, hpair, rfl,
      by simp only [edge_eq_spec], ⟨_, rfl, rfl⟩, Or.inr ⟨rfl, ?_, rfl, ?_⟩⟩
    · simp only []; rw [← hi.tol]; exact not_le.1 hstop
    · refine ⟨hi.ne, hi.nu1, hi.tol, by simp [hi.hlen], by simp [hi.qlen], hpair.dlen, hpair.dnear,
        ⟨m', rfl, ?_, ?_⟩, ?_, ?_⟩
      · exact hma'
      · intro _
        refine ⟨-sol.objVal, hpair, ?_⟩
        simp only []; rw [← hi.tol]; exact not_le.1 hstop
      · simp only [hedges]
        refine ⟨(min_le_right _ _).trans hi.hat_le.1, ?_⟩
        intro g hg
        rcases List.mem_append.1 hg with hg | hg
        · exact (min_le_right _ _).trans (hi.hat_le.2 g hg)
        · simp only [List.mem_singleton] at hg
          rw [hg, ← edge_eq_spec]; exact min_le_left _ _
      · simp only [hedges]
        rcases min_choice (edge S s.dist h) s.gammaHat with hc | hc
        · right; rw [hc, edge_eq_spec]; simp
        · rw [hc]
          rcases hi.hat_mem with h1 | h1
          · left; exact h1
          · right; exact List.mem_append_left _ h1

theorem lpn_inv {S : Examples X ℝ} {ε : ℝ} (hε : 0 ≤ ε) {s₀ : LPBoost ℝ H} (hn : s₀.nSample = S.length)
    {solver : Solver ℝ} (hsolver : solver.Accurate ε) {wl : WeakLearner ℝ H} {n : Nat} {qs : List (List ℝ)}
    {s : LPBoost ℝ H} (hr : (LPBoost.booster solver S).Reachable wl s₀ n qs s) : LPNear S ε s₀ n qs s := by
  induction hr with
  | start h => exact lpn_start hε hn h
  | @step n qs s₁ out hr hb hf ih =>
    obtain ⟨out', γ, d, w, h1, -, -, -, -, -, h2 | h2⟩ := lpn_step ih hsolver wl
    · rw [show LPBoost.boost solver S s₁ wl (n + 1) = .ok out from hb, Except.ok.injEq] at h1
      subst h1; rw [h2.1] at hf; cases hf
    · rw [show LPBoost.boost solver S s₁ wl (n + 1) = .ok out from hb, Except.ok.injEq] at h1
      subst h1; exact h2.2.2.2

/-- C114: with a solver of accuracy `ε` no call of `boost` panics, and the vector handed to the weak learner is a
probability vector over the examples up to `ε`. (Entries down to `-ε` can occur.) -/
theorem lpboost_accurate_queries (S : Examples X ℝ) (ε : ℝ) (hε : 0 ≤ ε) (s₀ : LPBoost ℝ H)
    (hn : s₀.nSample = S.length) (solver : Solver ℝ) (hsolver : solver.Accurate ε) (wl : WeakLearner ℝ H) (n : Nat)
    (qs : List (List ℝ)) (s : LPBoost ℝ H) (hr : (LPBoost.booster solver S).Reachable wl s₀ n qs s) :
    ∃ out d, (LPBoost.booster solver S).boost s wl (n + 1) = .ok out ∧ out.queries = [d] ∧ d.length = S.length ∧
      Spec.NearProb ε d := by
  have hi := lpn_inv hε hn hsolver hr
  obtain ⟨out, γ, d, w, h1, h2, -⟩ := lpn_step hi hsolver wl
  exact ⟨out, s.dist, h1, h2, hi.dlen, hi.dnear⟩

/-- The two sides of a near pair, made exact. -/
theorem near_exact {S : Examples X ℝ} {ε c : ℝ} (hε : 0 ≤ ε) (hε1 : ε < 1) {hs : List H} {d w : List ℝ} {γ : ℝ}
    (hb : ∀ h ∈ hs, ∀ e ∈ S, |e.2 * conf h e.1| ≤ 1) (hp : Spec.NearPair S hs ε c d w γ) :
    (∃ d' : List ℝ, d'.length = S.length ∧ Spec.IsProb d' ∧
      ∀ h ∈ hs, Spec.edge S d' (conf h) ≤ γ + (2 * S.length + 4) * ε) ∧
    ∃ f, WeightedMajority.fromSlices w hs = .ok f ∧ Spec.IsProb f.weights ∧ f.weights.length = f.hypotheses.length ∧
      (∀ h ∈ f.hypotheses, h ∈ hs) ∧ ∀ e ∈ S, γ - (c + 2 * hs.length + 1) * ε ≤ e.2 * conf f e.1 := by
  constructor
  · obtain ⟨h1, h2⟩ := Accurate.clipped_prob d ε hε hε1 hp.dnear
    refine ⟨_, h2.trans hp.dlen, h1, fun h hh => ?_⟩
    have h3 := (abs_le.1 (Accurate.clipped_edge S d ε hε hε1 hp.dlen hp.dnear (conf h) (hb h hh))).2
    have h4 := hp.edges h hh
    linarith
  · obtain ⟨f, h1, h2, h3, h4, h5⟩ := Accurate.fromSlices_near (X := X) w hs hp.wlen ε hε hε1 hp.wnear
    refine ⟨f, h1, h2, h3, h4, fun e he => ?_⟩
    have h6 := (abs_le.1 (h5 e.2 e.1 fun h hh => hb h hh e he)).1
    have h7 := hp.margins e he
    linarith

/-- Up to the accuracy, the value never decreases. -/
theorem near_mono {S : Examples X ℝ} {ε c : ℝ} (hε : 0 ≤ ε) (hε1 : ε < 1) {hs hs' : List H} (hsub : ∀ h ∈ hs, h ∈ hs')
    (hb : ∀ h ∈ hs', ∀ e ∈ S, |e.2 * conf h e.1| ≤ 1) {d w d' w' : List ℝ} {γ γ' : ℝ}
    (hp : Spec.NearPair S hs ε c d w γ) (hp' : Spec.NearPair S hs' ε c d' w' γ') :
    γ - (c + 2 * hs.length + 1) * ε ≤ γ' + (2 * S.length + 4) * ε := by
  obtain ⟨-, f, h1, h2, h3, h4, h5⟩ := near_exact hε hε1 (fun h hh => hb h (hsub h hh)) hp
  obtain ⟨⟨q, g1, g2, g3⟩, -⟩ := near_exact hε hε1 hb hp'
  have a1 := LP.le_edge_of_margins S q g1 g2 (fun x => conf f x) _ h5
  have a2 := LP.vote_edge_le S f.hypotheses q f.weights h3 h2 _ (fun h hh => g3 h (hsub h (h4 h hh)))
  simp only [conf_weightedMajority] at a1
  exact a1.trans a2

/-- C114, certificate at stopping: when `run` returns `f` after asking the weak learner with the vectors `qs` and
getting the hypotheses `hs`, then `f` is a convex combination of `hs`, and there is a value `γ` such that `f` has
margin at least `γ` on every example up to `ε` times `ν m + 2 T + 2`, some (exact) probability vector gives no
hypothesis in `hs` an edge above `γ` up to `ε` times `2 m + 4`, and `γ` is within `tolerance` of the smallest edge
that the weak learner achieved (capped by 1); `m` examples, `T` rounds. -/
theorem lpboost_accurate_certificate (S : Examples X ℝ) (ε : ℝ) (hε : 0 ≤ ε) (hε1 : ε < 1) (s₀ : LPBoost ℝ H)
    (hn : s₀.nSample = S.length) (solver : Solver ℝ) (hsolver : solver.Accurate ε) (wl : WeakLearner ℝ H)
    (hb : ∀ k d, ∀ e ∈ S, |e.2 * conf (wl k d) e.1| ≤ (1 : ℝ)) (fuel : Nat) (f : WeightedMajority ℝ H)
    (qs : List (List ℝ)) (hrun : (LPBoost.booster solver S).run wl fuel s₀ = some (.ok (f, qs))) :
    ∃ hs : List H, ∃ γ : ℝ, ∃ d : List ℝ, hs.length = qs.length ∧
      (∀ i q h, qs[i]? = some q → hs[i]? = some h → h = wl (i + 1) q) ∧
      (∀ q ∈ qs, q.length = S.length ∧ Spec.NearProb ε q) ∧
      Spec.IsProb f.weights ∧ (∀ h ∈ f.hypotheses, h ∈ hs) ∧
      (∀ e ∈ S, γ - (s₀.nu * S.length + 2 * qs.length + 2) * ε ≤ e.2 * conf f e.1) ∧
      d.length = S.length ∧ Spec.IsProb d ∧
      (∀ h ∈ hs, Spec.edge S d (conf h) ≤ γ + (2 * S.length + 4) * ε) ∧
      ∃ g ∈ 1 :: Spec.edges S conf qs hs, (∀ g' ∈ 1 :: Spec.edges S conf qs hs, g ≤ g') ∧ g - s₀.tolerance ≤ γ := by
  obtain ⟨n, qs', s', out, k, h1, h2, h3, h4, h5, h6⟩ := (LPBoost.booster solver S).run_spec wl s₀ hrun
  have hi := lpn_inv hε hn hsolver h1
  -- the history
  have hcalls : ∀ {n qs s} (_ : (LPBoost.booster solver S).Reachable wl s₀ n qs s),
      (∀ i q h, qs[i]? = some q → s.hypotheses[i]? = some h → h = wl (i + 1) q) ∧
      (∀ q ∈ qs, q.length = S.length ∧ Spec.NearProb ε q) ∧
      (∀ h ∈ s.hypotheses, ∀ e ∈ S, |e.2 * conf h e.1| ≤ 1) := by
    intro n qs s hr
    induction hr with
    | @start s h =>
      have hi := lpn_start hε hn h
      rw [List.length_eq_zero_iff.1 hi.hlen]
      simp
    | @step n qs s₁ out hr hb' hf ih =>
      have hi := lpn_inv hε hn hsolver hr
      obtain ⟨out', γ, d, w, g1, g2, -, g3, -⟩ := lpn_step hi hsolver wl
      rw [show LPBoost.boost solver S s₁ wl (n + 1) = .ok out from hb', Except.ok.injEq] at g1
      subst g1
      refine ⟨?_, ?_, ?_⟩
      · intro i q h hq hh
        rw [g3] at hh
        rw [g2] at hq
        by_cases c : i < n
        · rw [List.getElem?_append_left (by rw [hi.qlen]; exact c)] at hq
          rw [List.getElem?_append_left (by rw [hi.hlen]; exact c)] at hh
          exact ih.1 i q h hq hh
        · rw [List.getElem?_append_right (by rw [hi.qlen]; omega), hi.qlen] at hq
          rw [List.getElem?_append_right (by rw [hi.hlen]; omega), hi.hlen] at hh
          have : i - n = 0 := by
            by_contra hne
            rw [List.getElem?_eq_none (by simp; omega)] at hq; simp at hq
          rw [this] at hq hh
          simp at hq hh
          have hin : i = n := by omega
          subst hin; rw [← hh, ← hq]
      · intro q hq
        rw [g2] at hq
        rcases List.mem_append.1 hq with hq | hq
        · exact ih.2.1 q hq
        · simp at hq; subst hq; exact ⟨hi.dlen, hi.dnear⟩
      · intro h hh
        rw [g3] at hh
        rcases List.mem_append.1 hh with hh | hh
        · exact ih.2.2 h hh
        · simp at hh; subst hh; exact hb _ _
  obtain ⟨out', γ, d, w, g1, g2, g3, g4, g5, ⟨m, g6, g7⟩, g8⟩ := lpn_step hi hsolver wl
  rw [show LPBoost.boost solver S s' wl (n + 1) = .ok out from h3, Except.ok.injEq] at g1
  subst g1
  rcases g8 with ⟨g9, g10⟩ | ⟨g9, -⟩
  swap
  · rw [g9] at h4; cases h4
  have hq : qs = qs' ++ [s'.dist] := by rw [h5, g2]
  have hedges : Spec.edges S conf qs (s'.hypotheses ++ [wl (n + 1) s'.dist]) =
      Spec.edges S conf qs' s'.hypotheses ++ [Spec.edge S s'.dist (conf (wl (n + 1) s'.dist))] := by
    rw [hq]
    exact edges_append S qs' s'.hypotheses (by rw [hi.qlen, hi.hlen]) s'.dist _
  have hpost : WeightedMajority.fromSlices w (s'.hypotheses ++ [wl (n + 1) s'.dist]) = .ok f := by
    have := h6
    simp only [LPBoost.booster, LPBoost.postprocess, g6, g7, g4] at this
    exact this
  have hbs : ∀ h ∈ s'.hypotheses ++ [wl (n + 1) s'.dist], ∀ e ∈ S, |e.2 * conf h e.1| ≤ 1 := by
    intro h hh
    rcases List.mem_append.1 hh with hh | hh
    · exact (hcalls h1).2.2 h hh
    · simp at hh; subst hh; exact hb _ _
  obtain ⟨⟨d', x1, x2, x3⟩, f', hf1, hf2, hf3, hf4, hf5⟩ := near_exact hε hε1 hbs g3
  rw [hpost, Except.ok.injEq] at hf1
  subst hf1
  have hlen : (s'.hypotheses ++ [wl (n + 1) s'.dist]).length = qs.length := by
    rw [hq]; simp [hi.hlen, hi.qlen]
  refine ⟨s'.hypotheses ++ [wl (n + 1) s'.dist], γ, d', hlen, ?_, ?_, hf2, hf4, ?_, x1, x2, x3, ?_⟩
  · intro i q h hqi hhi
    rw [hq] at hqi
    by_cases c : i < n
    · rw [List.getElem?_append_left (by rw [hi.qlen]; exact c)] at hqi
      rw [List.getElem?_append_left (by rw [hi.hlen]; exact c)] at hhi
      exact (hcalls h1).1 i q h hqi hhi
    · rw [List.getElem?_append_right (by rw [hi.qlen]; omega), hi.qlen] at hqi
      rw [List.getElem?_append_right (by rw [hi.hlen]; omega), hi.hlen] at hhi
      have : i - n = 0 := by
        by_contra hne
        rw [List.getElem?_eq_none (by simp; omega)] at hqi; simp at hqi
      rw [this] at hqi hhi
      simp at hqi hhi
      have hin : i = n := by omega
      subst hin; rw [← hhi, ← hqi]
  · intro q hqq
    rw [hq] at hqq
    rcases List.mem_append.1 hqq with hqq | hqq
    · exact (hcalls h1).2.1 q hqq
    · simp at hqq; subst hqq; exact ⟨hi.dlen, hi.dnear⟩
  · intro e he
    have := hf5 e he
    rw [hlen] at this
    linarith
  · refine ⟨out.state.gammaHat, ?_, ?_, g10⟩
    · rw [hedges, g5]
      rcases min_choice (Spec.edge S s'.dist (conf (wl (n + 1) s'.dist))) s'.gammaHat with hc | hc
      · rw [hc]; simp
      · rw [hc]
        rcases hi.hat_mem with h | h
        · rw [h]; simp
        · exact List.mem_cons_of_mem _ (List.mem_append_left _ h)
    · intro g hg
      rw [hedges] at hg
      rw [g5]
      rcases List.mem_cons.1 hg with rfl | hg
      · exact (min_le_right _ _).trans hi.hat_le.1
      · rcases List.mem_append.1 hg with hg | hg
        · exact (min_le_right _ _).trans (hi.hat_le.2 g hg)
        · simp only [List.mem_singleton] at hg
          rw [hg]; exact min_le_left _ _

/-- C114: if the weak learner finds edge `ρ ≤ 1` on every near-probability vector, the final hypothesis has margin at
least `ρ - tolerance - (ν m + 2 T + 2) ε` on every training example. -/
theorem lpboost_accurate_margin (S : Examples X ℝ) (ε : ℝ) (hε : 0 ≤ ε) (hε1 : ε < 1) (s₀ : LPBoost ℝ H)
    (hn : s₀.nSample = S.length) (solver : Solver ℝ) (hsolver : solver.Accurate ε) (wl : WeakLearner ℝ H)
    (hb : ∀ k d, ∀ e ∈ S, |e.2 * conf (wl k d) e.1| ≤ (1 : ℝ)) (ρ : ℝ) (hρ : ρ ≤ 1)
    (hwl : ∀ k d, d.length = S.length → Spec.NearProb ε d → ρ ≤ Spec.edge S d (conf (wl k d)))
    (fuel : Nat) (f : WeightedMajority ℝ H) (qs : List (List ℝ))
    (hrun : (LPBoost.booster solver S).run wl fuel s₀ = some (.ok (f, qs))) :
    Spec.IsProb f.weights ∧
      ∀ e ∈ S, ρ - s₀.tolerance - (s₀.nu * S.length + 2 * qs.length + 2) * ε ≤ e.2 * conf f e.1 := by
  obtain ⟨hs, γ, d, c1, c2, c0, c3, c4, c5, c6, c7, c8, g, c9, c10, c11⟩ :=
    lpboost_accurate_certificate S ε hε hε1 s₀ hn solver hsolver wl hb fuel f qs hrun
  refine ⟨c3, fun e he => ?_⟩
  have hg : ρ ≤ g := by
    rcases List.mem_cons.1 c9 with rfl | hg
    · exact hρ
    · unfold Spec.edges at hg
      obtain ⟨i, hi, rfl⟩ := List.getElem_of_mem hg
      simp only [List.length_zipWith] at hi
      rw [List.getElem_zipWith]
      have hq := c0 qs[i] (List.getElem_mem (by omega))
      rw [c2 i qs[i] hs[i] (by simp) (by simp)]
      exact hwl _ _ hq.1 hq.2
  have := c5 e he
  linarith

/-- C114: LPBoost finds the best hard margin up to `tolerance` and the accuracy: if the weak learner always returns a
hypothesis of the class `C` with the largest edge, then no convex combination of hypotheses of `C` has a minimum
margin that beats that of the final hypothesis by more than `tolerance + (ν m + 2 m + 2 T + 3) ε`. -/
theorem lpboost_accurate_near_optimal (S : Examples X ℝ) (ε : ℝ) (hε : 0 ≤ ε) (hε1 : ε < 1) (s₀ : LPBoost ℝ H)
    (hn : s₀.nSample = S.length) (solver : Solver ℝ) (hsolver : solver.Accurate ε) (wl : WeakLearner ℝ H)
    (C : Set H) (hC : ∀ h ∈ C, ∀ e ∈ S, |e.2 * conf h e.1| ≤ (1 : ℝ)) (hmem : ∀ k d, wl k d ∈ C)
    (hwl : ∀ k d, d.length = S.length → Spec.NearProb ε d →
      ∀ h ∈ C, Spec.edge S d (conf h) ≤ Spec.edge S d (conf (wl k d)))
    (fuel : Nat) (f : WeightedMajority ℝ H) (qs : List (List ℝ))
    (hrun : (LPBoost.booster solver S).run wl fuel s₀ = some (.ok (f, qs)))
    (v : List (ℝ × H)) (hv : ∀ p ∈ v, 0 ≤ p.1 ∧ p.2 ∈ C) (hv1 : (v.map Prod.fst).sum = 1)
    (ρ : ℝ) (hρ : ∀ e ∈ S, ρ ≤ e.2 * Spec.vote conf v e.1) :
    ∀ e ∈ S, ρ - s₀.tolerance - (s₀.nu * S.length + 2 * S.length + 2 * qs.length + 3) * ε ≤ e.2 * conf f e.1 := by
  have hvote : ∀ e ∈ S, |e.2 * Spec.vote conf v e.1| ≤ 1 := by
    intro e he
    have h1 : e.2 * Spec.vote conf v e.1 = (v.map fun p => p.1 * (e.2 * conf p.2 e.1)).sum := by
      unfold Spec.vote
      rw [← sum_map_mul_left']
      congr 1; apply List.map_congr_left; intro p _; ring
    rw [h1, abs_le]
    constructor
    · have := LP.weighted_le v (fun p hp => (hv p hp).1) hv1 (fun h => -(e.2 * conf h e.1)) 1
        (fun p hp => by have := (abs_le.1 (hC _ (hv p hp).2 e he)).1; linarith)
      have h2 : (v.map fun p => p.1 * -(e.2 * conf p.2 e.1)).sum = -(v.map fun p => p.1 * (e.2 * conf p.2 e.1)).sum := by
        rw [← neg_one_mul, ← sum_map_mul_left']
        congr 1; apply List.map_congr_left; intro p _; ring
      rw [h2] at this
      linarith
    · exact LP.weighted_le v (fun p hp => (hv p hp).1) hv1 (fun h => e.2 * conf h e.1) 1
        (fun p hp => (abs_le.1 (hC _ (hv p hp).2 e he)).2)
  intro e he
  have hmain := (lpboost_accurate_margin S ε hε hε1 s₀ hn solver hsolver wl (fun k d => hC _ (hmem k d))
    (ρ - (2 * S.length + 1) * ε) ?_ ?_ fuel f qs hrun).2 e he
  · linarith
  · have h1 := (hρ e he).trans (abs_le.1 (hvote e he)).2
    have h2 : 0 ≤ (2 * (S.length : ℝ) + 1) * ε := by positivity
    linarith
  · intro k d hl hd
    obtain ⟨p1, p2⟩ := Accurate.clipped_prob d ε hε hε1 hd
    have h1 := LP.le_edge_of_margins S _ (p2.trans hl) p1 (Spec.vote conf v) ρ hρ
    have h3 := (abs_le.1 (Accurate.clipped_edge S d ε hε hε1 hl hd (Spec.vote conf v) hvote)).2
    have h2 := LP.pair_edge S (v.map Prod.snd) d (v.map Prod.fst) (by simp)
    rw [zip_map_fst_snd] at h2
    have h4 : Spec.edge S d (Spec.vote conf v) ≤ Spec.edge S d (conf (wl k d)) := by
      rw [show Spec.edge S d (Spec.vote conf v) = _ from h2]
      exact LP.weighted_le v (fun p hp => (hv p hp).1) hv1 (fun h => Spec.edge S d (conf h)) _
        (fun p hp => hwl k d hl hd _ (hv p hp).2)
    linarith

/-- C114, termination: when the weak learner only ever returns hypotheses from a finite list `C` and `tolerance` is at
least `(ν m + 2 m + 2 |C| + 9) ε`, `run` returns a hypothesis after at most `|C| + 1` calls. -/
theorem lpboost_accurate_returns (S : Examples X ℝ) (ε : ℝ) (hε : 0 ≤ ε) (hε1 : ε < 1) (s₀ : LPBoost ℝ H)
    (hn : s₀.nSample = S.length) (hbin : checkBinary S = .ok ()) (hnu : 1 ≤ s₀.nu) (hnu' : s₀.nu ≤ S.length)
    (solver : Solver ℝ) (hsolver : solver.Accurate ε) (wl : WeakLearner ℝ H) (C : List H) (hC : ∀ k d, wl k d ∈ C)
    (hb : ∀ h ∈ C, ∀ e ∈ S, |e.2 * conf h e.1| ≤ (1 : ℝ))
    (htol : (s₀.nu * S.length + 2 * S.length + 2 * C.length + 9) * ε ≤ s₀.tolerance) :
    ∃ f qs, (LPBoost.booster solver S).run wl (C.length + 1) s₀ = some (.ok (f, qs)) ∧ qs.length ≤ C.length + 1 := by
  have hnodup : ∀ {n qs s} (_ : (LPBoost.booster solver S).Reachable wl s₀ n qs s),
      s.hypotheses.Nodup ∧ ∀ h ∈ s.hypotheses, h ∈ C := by
    intro n qs s hr
    induction hr with
    | start h =>
      have hi := lpn_start hε hn h
      rw [List.length_eq_zero_iff.1 hi.hlen]; simp
    | @step n qs s₁ out hr hb' hf ih =>
      have hi := lpn_inv hε hn hsolver hr
      obtain ⟨out', γ, d, w, g1, g2, g3, g4, g5, -, g6 | g6⟩ := lpn_step hi hsolver wl
      · rw [show LPBoost.boost solver S s₁ wl (n + 1) = .ok out from hb', Except.ok.injEq] at g1
        subst g1; rw [g6.1] at hf; cases hf
      · rw [show LPBoost.boost solver S s₁ wl (n + 1) = .ok out from hb', Except.ok.injEq] at g1
        subst g1
        have hsub : ∀ h ∈ s₁.hypotheses ++ [wl (n + 1) s₁.dist], h ∈ C := by
          intro h hh
          rcases List.mem_append.1 hh with hh | hh
          · exact ih.2 h hh
          · simp only [List.mem_singleton] at hh
            rw [hh]; exact hC _ _
        rw [g4]
        refine ⟨?_, hsub⟩
        rw [List.nodup_append]
        refine ⟨ih.1, List.nodup_singleton _, ?_⟩
        rintro a ha b hb'' rfl
        simp only [List.mem_singleton] at hb''
        have hpos : 1 ≤ n := by
          rw [← hi.hlen]; exact List.length_pos_iff.2 (List.ne_nil_of_mem ha)
        obtain ⟨m, hm, -, hmn⟩ := hi.model
        obtain ⟨γ₁, hp, hlt⟩ := hmn hpos
        have e1 : Spec.edge S s₁.dist (conf (wl (n + 1) s₁.dist)) ≤ γ₁ + 3 * ε := by rw [← hb'']; exact hp.edges a ha
        have e2 := near_mono hε hε1 (fun h hh => List.mem_append_left _ hh) (fun h hh => hb h (hsub h hh)) hp g3
        have e3 := g6.2.1
        rw [g5] at e3
        have e4 := min_le_left (Spec.edge S s₁.dist (conf (wl (n + 1) s₁.dist))) s₁.gammaHat
        have e5 : (s₁.hypotheses.length : ℝ) ≤ C.length := by exact_mod_cast (ih.1.subperm ih.2).length_le
        have e6 : (s₀.nu * S.length + 2 * S.length + 2 * s₁.hypotheses.length + 9) * ε ≤
            (s₀.nu * S.length + 2 * S.length + 2 * C.length + 9) * ε :=
          mul_le_mul_of_nonneg_right (by linarith) hε
        linarith
  obtain ⟨r, hr⟩ := (LPBoost.booster solver S).run_terminates wl s₀ C.length (by
    intro qs s out hr hb' hf
    have h1 := hnodup (Booster.Reachable.step hr hb' hf)
    have h2 := (lpn_inv hε hn hsolver (Booster.Reachable.step hr hb' hf)).hlen
    have h3 := (h1.1.subperm h1.2).length_le
    omega)
  have hok : ∃ f qs, r = .ok (f, qs) := by
    have hpre : ∃ s, LPBoost.preprocess S s₀ = .ok s := by
      unfold LPBoost.preprocess LPBoost.initSolver
      rw [hbin]; simp [hnu, hnu']
    obtain ⟨s1, hs1⟩ := hpre
    unfold Booster.run at hr
    rw [show (LPBoost.booster solver S).preprocess s₀ wl = .ok s1 from hs1] at hr
    simp only at hr
    cases hl : (LPBoost.booster solver S).loop wl (C.length + 1) s1 1 with
    | none => rw [hl] at hr; simp at hr
    | some r' =>
      rw [hl] at hr
      rcases (LPBoost.booster solver S).loop_spec wl s₀ (Booster.Reachable.start (B := LPBoost.booster solver S)
        (wl := wl) (s := s₀) hs1) hl with ⟨n', qs', s', h1, h2, e, h3, h4⟩ | ⟨n', qs', s', out, k, h1, h2, h3, h4, qs, h5, h6⟩
      · obtain ⟨out, d, g1, -⟩ := lpboost_accurate_queries S ε hε s₀ hn solver hsolver wl n' qs' s' h1
        rw [g1] at h3; cases h3
      · rw [h6] at hr
        simp only at hr
        have hi := lpn_inv hε hn hsolver h1
        obtain ⟨out', γ, d, w, g1, g2, g3, g4, g5, ⟨m, g6, g7⟩, -⟩ := lpn_step hi hsolver wl
        rw [show LPBoost.boost solver S s' wl (n' + 1) = .ok out from h3, Except.ok.injEq] at g1
        subst g1
        obtain ⟨f, hf, -⟩ := Accurate.fromSlices_near (X := X) w _ g3.wlen ε hε hε1 g3.wnear
        have : (LPBoost.booster solver S).postprocess out.state = .ok f := by
          simp only [LPBoost.booster, LPBoost.postprocess, g6, g7, g4]; exact hf
        rw [this] at hr
        simp only [Option.some.injEq] at hr
        exact ⟨f, qs, hr.symm⟩
  obtain ⟨f, qs, rfl⟩ := hok
  refine ⟨f, qs, hr, ?_⟩
  obtain ⟨n, qs', s', out, k, h1, h2, h3, h4, h5, h6⟩ := (LPBoost.booster solver S).run_spec wl s₀ hr
  obtain ⟨out', d, g1, g2, -⟩ := lpboost_accurate_queries S ε hε s₀ hn solver hsolver wl n qs' s' h1
  rw [h3, Except.ok.injEq] at g1; subst g1
  rw [h5, g2]
  have := (lpn_inv hε hn hsolver h1).qlen
  simp; omega

/-! ## The condition on `tolerance` is needed; cases that meet the hypotheses -/

section limits

/-- A solver that reports a value which is too large by `ε`, and is otherwise exact. -/
noncomputable def offBy (ε : ℝ) (solver : Solver ℝ) : Solver ℝ :=
  fun p => { solver p with objVal := (solver p).objVal + ε }

theorem offBy_accurate (ε : ℝ) (hε : 0 ≤ ε) (solver : Solver ℝ) (h : solver.Correct) : (offBy ε solver).Accurate ε := by
  intro p s hp hs
  have ho := h p s hs
  have ha := Accurate.of_optimal hp ho
  refine ⟨ha.xlen, ha.zlen, fun i hi => (ha.equality i hi).trans hε, fun i hi => ?_, fun i hi => ?_,
    fun j hj => (ha.stationary j hj).trans hε, ?_, ?_⟩
  · have := ha.inequality i hi; simp only [offBy]; linarith
  · have := ha.dual i hi; simp only [offBy]; linarith
  · have := ha.value
    simp only [offBy]
    rw [abs_nonpos_iff] at this
    rw [show (solver p).objVal + ε - p.objective (solver p).x = ε by linarith, abs_of_nonneg hε]
  · have := ha.gap
    simp only [offBy]
    rw [abs_nonpos_iff] at this
    rw [show (solver p).objVal + ε - p.dualObjective (solver p).x (solver p).z = ε by linarith, abs_of_nonneg hε]

/-- LPBoost on the two-example sample with a given tolerance. -/
noncomputable def exTol (tol : ℝ) : LPBoost ℝ (Fn Nat ℝ) := (LPBoost.init exSample).setTolerance tol

theorem exLearner_near {ε : ℝ} (k : Nat) (d : List ℝ) (hl : d.length = exSample.length) (hd : Spec.NearProb ε d) :
    1 / 2 * (1 - ε) ≤ Spec.edge exSample d (conf (exLearner k d)) := by
  match d, hl with
  | [a, b], _ =>
    have := (abs_le.1 hd.2).1
    simp only [List.sum_cons, List.sum_nil, add_zero] at this
    simp [Spec.edge, exSample, exLearner, conf]
    linarith

theorem exLearner_bound (k : Nat) (d : List ℝ) : ∀ e ∈ exSample, |e.2 * conf (exLearner k d) e.1| ≤ (1 : ℝ) := by
  intro e he
  simp [exSample] at he
  rcases he with rfl | rfl
  · simp only [exLearner, conf, if_true]; rw [abs_le]; constructor <;> norm_num
  · simp only [exLearner, conf]; rw [abs_le]; constructor <;> norm_num

/-- The states of the run that does not end. -/
structure Stuck (tol : ℝ) (s : LPBoost ℝ (Fn Nat ℝ)) : Prop where
  tol : s.tolerance = tol
  dlen : s.dist.length = exSample.length
  dprob : Spec.IsProb s.dist
  hat : 1 / 2 ≤ s.gammaHat
  hyps : ∀ h ∈ s.hypotheses, h = exLearner 0 []
  model : ∃ m, s.lpModel = some m ∧ { m with weights := [], dist := [] } = LPModel.after exSample 1 s.hypotheses

theorem stuck_step {tol ε : ℝ} (ht : tol < ε) {solver : Solver ℝ} (hsolver : solver.Correct)
    {s : LPBoost ℝ (Fn Nat ℝ)} (hs : Stuck tol s) (k : Nat) :
    ∃ out, LPBoost.boost (offBy ε solver) exSample s exLearner k = .ok out ∧ out.flow = .cont ∧ Stuck tol out.state := by
  obtain ⟨m, hm, hma⟩ := hs.model
  set h := exLearner k s.dist with hh
  have hma' := after_addColumn m h hma
  obtain ⟨hp1, hp2⟩ := after_program _ hma'
  have hopt := lpboost_solver_answers exSample (by simp [exSample]) 1 le_rfl (s.hypotheses ++ [h]) (by simp) solver hsolver
  set sol := solver (LPBoost.program exSample 1 (s.hypotheses ++ [h])) with hsol
  obtain ⟨l1, l2, hpair⟩ := LP.optimal_pair exSample 1 le_rfl _ sol hopt
  set m' : LPModel ℝ := { m.addColumn exSample h with
    weights := sol.x.drop (1 + exSample.length), dist := sol.z.take exSample.length } with hm'
  have hupd : m.update (offBy ε solver) exSample h = .ok (m', -(sol.objVal + ε)) := by
    unfold LPModel.update
    simp only [hp1, hp2, offBy, ← hsol]
    rw [if_neg (by omega), hm']
    simp only [hp2]
  have hall : ∀ h' ∈ s.hypotheses ++ [h], h' = exLearner 0 [] := by
    intro h' hh'
    rcases List.mem_append.1 hh' with hh' | hh'
    · exact hs.hyps h' hh'
    · simp at hh'; rw [hh']; rfl
  -- the value is at most one half
  have hval : -sol.objVal ≤ 1 / 2 := by
    have h1 := LP.vote_edge_le exSample (s.hypotheses ++ [h]) [1, 0] _ hpair.wlen hpair.wprob (1 / 2) (by
      intro h' hh'
      rw [hall h' hh']
      simp [Spec.edge, exSample, exLearner, conf])
    have h2 := LP.le_edge_of_margins exSample [1, 0] rfl ⟨by simp, by simp⟩ _ _ hpair.margins
    exact h2.trans h1
  have hedge : edge exSample s.dist h = 1 / 2 := by
    rw [edge_eq_spec]
    have hl := hs.dlen
    have h1 := hs.dprob.2
    rw [hh]
    match s.dist, hl, h1 with
    | [a, b], _, h1 =>
      simp only [List.sum_cons, List.sum_nil, add_zero] at h1
      simp [Spec.edge, exSample, exLearner, conf]
      linarith
  have hstop : ¬ min (edge exSample s.dist h) s.gammaHat - s.tolerance ≤ -(sol.objVal + ε) := by
    rw [hedge, min_eq_left hs.hat, hs.tol]
    intro hc; linarith
  refine ⟨_, by simp only [LPBoost.boost, hm, ← hh, hupd]; rw [if_neg hstop], rfl, hs.tol, hpair.dlen, hpair.dprob, ?_, hall,
    m', rfl, hma'⟩
  simp only [hedge]
  exact le_min le_rfl hs.hat

/-- C114: the condition on `tolerance` cannot be dropped. For every `ε > 0` and every tolerance below `ε` there is a
solver of accuracy `ε` with which `run` never returns, on two examples and with a weak learner that always answers the
same, correct hypothesis (with a correct solver it returns for every tolerance `≥ 0`, `lpboost_returns`). -/
theorem lpboost_accurate_loops (ε tol : ℝ) (hε : 0 ≤ ε) (ht : tol < ε) :
    ∃ solver : Solver ℝ, solver.Accurate ε ∧
      ∀ fuel, (LPBoost.booster solver exSample).run exLearner fuel (exTol tol) = none := by
  obtain ⟨solver, hsolver⟩ := exists_correct_solver
  refine ⟨offBy ε solver, offBy_accurate ε hε solver hsolver, fun fuel => ?_⟩
  have hpre : ∃ s, LPBoost.preprocess exSample (exTol tol) = .ok s ∧ Stuck tol s := by
    unfold LPBoost.preprocess LPBoost.initSolver
    have hc : (1 : ℝ) ≤ (exTol tol).nu ∧ (exTol tol).nu ≤ (exSample.length : ℝ) := by
      simp [exTol, LPBoost.init, LPBoost.setTolerance, exSample]
    rw [exSample_valid]
    simp only [if_pos hc]
    refine ⟨_, rfl, rfl, by simp, ⟨?_, ?_⟩, ?_, by simp, _, rfl, ?_⟩
    · intro p hp; rw [List.eq_of_mem_replicate hp]; positivity
    · rw [List.sum_replicate]; simp [exTol, LPBoost.init, LPBoost.setTolerance, exSample]
    · show (1 : ℝ) / 2 ≤ 1; norm_num
    · simp [LPModel.after, LPModel.init, exTol, LPBoost.init, LPBoost.setTolerance]
  obtain ⟨s1, hs1, hst⟩ := hpre
  have hloop : ∀ fuel k s, Stuck tol s → (LPBoost.booster (offBy ε solver) exSample).loop exLearner fuel s k = none := by
    intro fuel
    induction fuel with
    | zero => intro k s _; rfl
    | succ fuel ih =>
      intro k s hs
      obtain ⟨out, h1, h2, h3⟩ := stuck_step ht hsolver hs k
      have h1' : (LPBoost.booster (offBy ε solver) exSample).boost s exLearner k = .ok out := h1
      simp only [Booster.loop, h1', h2, ih _ _ h3, Option.map_none]
  unfold Booster.run
  rw [show (LPBoost.booster (offBy ε solver) exSample).preprocess (exTol tol) exLearner = .ok s1 from hs1]
  simp only [hloop _ _ _ hst]

/-- A case that meets all hypotheses: a solver that is really off by `10⁻⁸`, the two-example sample, and the default
tolerance `1/2`; LPBoost returns within two calls a hypothesis of margin at least `-10⁻⁶`. -/
example : ∃ solver : Solver ℝ, solver.Accurate (1 / 10 ^ 8) ∧ ¬ solver.Correct ∧ ∃ f qs,
    (LPBoost.booster solver exSample).run exLearner 2 (LPBoost.init exSample) = some (.ok (f, qs)) ∧ qs.length ≤ 2 ∧
    ∀ e ∈ exSample, (-(1 / 10 ^ 6) : ℝ) ≤ e.2 * conf f e.1 := by
  obtain ⟨solver, hsolver⟩ := exists_correct_solver
  have hacc := offBy_accurate (1 / 10 ^ 8) (by positivity) solver hsolver
  refine ⟨offBy (1 / 10 ^ 8) solver, hacc, ?_, ?_⟩
  · intro hc
    have h1 := lpboost_solver_answers exSample (by simp [exSample]) 1 le_rfl [exLearner 0 []] (by simp) solver hsolver
    have h2 := hc _ _ h1
    have h3 := h1.value
    have h4 := h2.value
    simp only [offBy] at h4
    rw [h3] at h4
    norm_num at h4
  · obtain ⟨f, qs, h, hl⟩ := lpboost_accurate_returns exSample (1 / 10 ^ 8) (by positivity) (by norm_num)
      (LPBoost.init exSample) rfl exSample_valid (by simp [LPBoost.init]) (by simp [LPBoost.init, exSample])
      _ hacc exLearner [exLearner 0 []] (fun k d => by simp [exLearner])
      (by intro h hh; simp at hh; subst hh; exact exLearner_bound 0 [])
      (by simp [LPBoost.init, exSample]; norm_num)
    refine ⟨f, qs, h, hl, fun e he => ?_⟩
    have h1 := (lpboost_accurate_margin exSample (1 / 10 ^ 8) (by positivity) (by norm_num) (LPBoost.init exSample) rfl _
      hacc exLearner exLearner_bound (1 / 2 * (1 - 1 / 10 ^ 8)) (by norm_num)
      (fun k d hl hd => exLearner_near k d hl hd) _ f qs h).2 e he
    have h2 : (qs.length : ℝ) ≤ 2 := by exact_mod_cast hl
    simp [LPBoost.init, exSample] at h1
    norm_num at h1 ⊢
    linarith

end limits

end Miniboosts.Props
