import Verif.Lemmas.SoftBoost
import Verif.Props.ERLPBoost

/-! # Properties of SoftBoost and TotalBoost (C27, C52, C66, C67) -/

namespace Miniboosts.Props

open Real LP

variable {H X : Type*} [Classifier H X ℝ]

/-! ## What does not depend on the solver -/

/-- The limit on the number of rounds, as documented. -/
noncomputable def softLimit (S : Examples X ℝ) (s₀ : SoftBoost H) : Nat :=
  ⌈2 * log ((S.length : ℝ) / s₀.nu) / s₀.tolerance ^ 2⌉₊

/-- What holds between rounds, whatever the solver does. -/
structure SoftInv (S : Examples X ℝ) (s₀ : SoftBoost H) (n : Nat) (qs : List (List ℝ)) (s : SoftBoost H) : Prop where
  bin : checkBinary S = .ok ()
  nu1 : 1 ≤ s₀.nu
  nu2 : s₀.nu ≤ S.length
  maxIter : s.maxIter = softLimit S s₀
  le : n ≤ softLimit S s₀
  hlen : s.hypotheses.length = n
  qlen : qs.length = n
  dlen : s.dist.length = S.length
  hat_le : ∀ g ∈ 1 :: Spec.edges S conf qs s.hypotheses, s.gammaHat ≤ g
  hat_mem : s.gammaHat ∈ 1 :: Spec.edges S conf qs s.hypotheses
  model : ∃ m, s.qpModel = some m ∧ SoftQP.Holds m S s.hypotheses s₀.nu
  uni : n = 0 → s.dist = List.replicate S.length (1 / (S.length : ℝ))

/-- Preprocessing succeeds exactly for a valid sample and parameters in range. -/
theorem softboost_preprocess_iff (S : Examples X ℝ) (s₀ : SoftBoost H) :
    (∃ s, SoftBoost.preprocess S s₀ = .ok s) ↔
      checkBinary S = .ok () ∧ s₀.tolerance ≠ 0 ∧ 1 ≤ s₀.nu ∧ s₀.nu ≤ S.length := by
  unfold SoftBoost.preprocess
  cases hc : checkBinary S with
  | error e => simp
  | ok u =>
    simp only [true_and]
    by_cases h1 : s₀.tolerance = 0
    · simp [h1]
    · rw [if_neg h1]
      simp only [SoftBoost.initSolver, checkNu]
      by_cases h3 : 1 ≤ s₀.nu ∧ s₀.nu ≤ (S.length : ℝ)
      · simp [h3, h1]
      · simp [h3, h1]

theorem soft_start {S : Examples X ℝ} {s₀ s : SoftBoost H} (h : SoftBoost.preprocess S s₀ = .ok s) : SoftInv S s₀ 0 [] s := by
  obtain ⟨h1, h2, h4, h5⟩ := (softboost_preprocess_iff S s₀).1 ⟨s, h⟩
  unfold SoftBoost.preprocess at h
  rw [h1] at h
  simp only [if_neg h2, SoftBoost.initSolver, checkNu, if_pos (show 1 ≤ s₀.nu ∧ s₀.nu ≤ (S.length : ℝ) from ⟨h4, h5⟩),
    Except.ok.injEq] at h
  subst h
  refine ⟨h1, h4, h5, rfl, Nat.zero_le _, rfl, rfl, by simp, ?_, by simp, ⟨_, rfl, SoftQP.Holds.init S s₀.nu⟩, fun _ => rfl⟩
  simp [Spec.edges]

theorem soft_solveLoop_length (solver : Solver ℝ) (m : SoftQP.QPModel) (g : ℝ) (fuel : Nat) (dist : List ℝ) (old : ℝ) (d : List ℝ)
    (b : Bool) (h : SoftQP.QPModel.solveLoop solver m g fuel dist old = .ok (d, b)) : d.length = dist.length := by
  induction fuel generalizing dist old with
  | zero => simp [SoftQP.QPModel.solveLoop] at h
  | succ fuel ih =>
    simp only [SoftQP.QPModel.solveLoop] at h
    by_cases c0 : (dist.any fun d => decide (d ≤ 0)) = true
    · rw [if_pos c0] at h; simp at h
    rw [if_neg c0] at h
    by_cases c1 : ¬ ((solver (m.program g dist)).x.all fun d => decide (0 < d)) = true
    · rw [if_pos c1] at h; simp at h; rw [h.1]
    rw [if_neg c1] at h
    by_cases c2 : old - (solver (m.program g dist)).objVal < SoftQP.qpTolerance
    · rw [if_pos c2] at h; simp at h; rw [← h.1, SoftQP.updateZip_length']
    · rw [if_neg c2] at h; rw [ih _ _ h, SoftQP.updateZip_length']

/-- One call of `boost`, whatever the solver does. -/
theorem soft_step {S : Examples X ℝ} {s₀ s : SoftBoost H} {n : Nat} {qs : List (List ℝ)} (hi : SoftInv S s₀ n qs s)
    {solver : Solver ℝ} {fuel : Nat} (wl : WeakLearner ℝ H) {out : BoostOut (SoftBoost H) ℝ}
    (hb : SoftBoost.boost solver fuel S s wl (n + 1) = .ok out) :
    (n = softLimit S s₀ ∧ out.flow = .brk n ∧ out.queries = [] ∧ out.state = s) ∨
    (n < softLimit S s₀ ∧ out.queries = [s.dist] ∧
      out.state.gammaHat = min s.gammaHat (Spec.edge S s.dist (conf (wl (n + 1) s.dist))) ∧
      out.state.hypotheses = s.hypotheses ++ [wl (n + 1) s.dist] ∧ out.state.maxIter = s.maxIter ∧
      ∃ m d b, s.qpModel = some m ∧ out.state.qpModel = some (m.addColumn S (wl (n + 1) s.dist)) ∧ out.state.dist = d ∧
        SoftQP.QPModel.solveLoop solver (m.addColumn S (wl (n + 1) s.dist)) out.state.gammaHat fuel s.dist (10 ^ 9) = .ok (d, b) ∧
        ((b = false ∧ out.flow = .brk (n + 1)) ∨ (b = true ∧ out.flow = .cont))) := by
  unfold SoftBoost.boost at hb
  rw [hi.maxIter] at hb
  by_cases c : softLimit S s₀ < n + 1
  · rw [if_pos c, Except.ok.injEq] at hb
    subst hb
    have : n = softLimit S s₀ := by have := hi.le; omega
    exact Or.inl ⟨this, by rw [← this], rfl, rfl⟩
  rw [if_neg c] at hb
  right
  obtain ⟨m, hm, -⟩ := hi.model
  have hg : (if Miniboosts.edge S s.dist (wl (n + 1) s.dist) < s.gammaHat then Miniboosts.edge S s.dist (wl (n + 1) s.dist) else s.gammaHat) =
      min s.gammaHat (Spec.edge S s.dist (conf (wl (n + 1) s.dist))) := by
    rw [edge_eq_spec]
    split
    · rename_i h; rw [min_eq_right h.le]
    · rename_i h; rw [min_eq_left (not_lt.1 h)]
  simp only [hm, hg, SoftQP.QPModel.update] at hb
  cases hu : SoftQP.QPModel.solveLoop solver (m.addColumn S (wl (n + 1) s.dist))
      (min s.gammaHat (Spec.edge S s.dist (conf (wl (n + 1) s.dist)))) fuel s.dist (10 ^ 9) with
  | error e => rw [hu] at hb; simp at hb
  | ok p =>
    obtain ⟨d, b⟩ := p
    rw [hu] at hb
    simp only at hb
    cases b with
    | true =>
      rw [if_pos rfl, Except.ok.injEq] at hb
      subst hb
      exact ⟨by omega, rfl, rfl, rfl, hi.maxIter.symm, m, d, true, hm, rfl, rfl, hu, Or.inr ⟨rfl, rfl⟩⟩
    | false =>
      rw [if_neg (by simp), Except.ok.injEq] at hb
      subst hb
      exact ⟨by omega, rfl, rfl, rfl, hi.maxIter.symm, m, d, false, hm, rfl, rfl, hu, Or.inl ⟨rfl, rfl⟩⟩

/-- A round in which the inner loop ends. -/
theorem soft_round {S : Examples X ℝ} {s₀ s : SoftBoost H} {n : Nat} {qs : List (List ℝ)} (hi : SoftInv S s₀ n qs s)
    {solver : Solver ℝ} {fuel : Nat} {m : SoftQP.QPModel} {d : List ℝ} (wl : WeakLearner ℝ H) (hn : n < softLimit S s₀)
    (hm : s.qpModel = some m)
    (hl : SoftQP.QPModel.solveLoop solver (m.addColumn S (wl (n + 1) s.dist))
      (min s.gammaHat (Spec.edge S s.dist (conf (wl (n + 1) s.dist)))) fuel s.dist (10 ^ 9) = .ok (d, true)) :
    SoftBoost.boost solver fuel S s wl (n + 1) = .ok
      { state := { s with gammaHat := min s.gammaHat (Spec.edge S s.dist (conf (wl (n + 1) s.dist))),
                          hypotheses := s.hypotheses ++ [wl (n + 1) s.dist], qpModel := some (m.addColumn S (wl (n + 1) s.dist)), dist := d }
        flow := .cont, queries := [s.dist] } := by
  have hg : (if Miniboosts.edge S s.dist (wl (n + 1) s.dist) < s.gammaHat then Miniboosts.edge S s.dist (wl (n + 1) s.dist) else s.gammaHat) =
      min s.gammaHat (Spec.edge S s.dist (conf (wl (n + 1) s.dist))) := by
    rw [edge_eq_spec]
    split
    · rename_i h; rw [min_eq_right h.le]
    · rename_i h; rw [min_eq_left (not_lt.1 h)]
  have hnot : ¬ s.maxIter < n + 1 := by rw [hi.maxIter]; omega
  simp only [SoftBoost.boost, if_neg hnot, hg, hm, SoftQP.QPModel.update, hl, if_true]

theorem soft_inv {S : Examples X ℝ} {s₀ : SoftBoost H} {solver : Solver ℝ} {fuel : Nat}
    {wl : WeakLearner ℝ H} {n : Nat} {qs : List (List ℝ)} {s : SoftBoost H}
    (hr : (SoftBoost.booster solver fuel S).Reachable wl s₀ n qs s) : SoftInv S s₀ n qs s := by
  induction hr with
  | start h => exact soft_start h
  | @step n qs s₁ out hr hb hf ih =>
    have hb' : SoftBoost.boost solver fuel S s₁ wl (n + 1) = .ok out := hb
    rcases soft_step ih wl hb' with ⟨-, h, -⟩ | ⟨h1, h2, h3, h4, h5, m, d, b, h6, h7, h8, h9, ⟨-, h⟩ | ⟨-, -⟩⟩
    · rw [h] at hf; cases hf
    · rw [h] at hf; cases hf
    have hval : Spec.edges S conf (qs ++ out.queries) out.state.hypotheses =
        Spec.edges S conf qs s₁.hypotheses ++ [Spec.edge S s₁.dist (conf (wl (n + 1) s₁.dist))] := by
      rw [h2, h4]
      exact edges_append S qs s₁.hypotheses (by rw [ih.qlen, ih.hlen]) _ _
    obtain ⟨m₀, hm₀, hh⟩ := ih.model
    rw [h6, Option.some.injEq] at hm₀
    subst hm₀
    refine ⟨ih.bin, ih.nu1, ih.nu2, by rw [h5, ih.maxIter], h1, by rw [h4]; simp [ih.hlen], by rw [h2]; simp [ih.qlen],
      ?_, ?_, ?_, ⟨_, h7, by rw [h4]; exact hh.addColumn _⟩, by omega⟩
    · rw [h8, soft_solveLoop_length _ _ _ _ _ _ _ _ h9, ih.dlen]
    · rw [hval, h3]
      intro g hg
      simp only [List.mem_cons, List.mem_append, List.not_mem_nil, or_false] at hg
      rcases hg with hg | hg | hg
      · exact (min_le_left _ _).trans (ih.hat_le g (by simp [hg]))
      · exact (min_le_left _ _).trans (ih.hat_le g (by simp [hg]))
      · rw [hg]; exact min_le_right _ _
    · rw [hval, h3]
      rcases min_choice s₁.gammaHat (Spec.edge S s₁.dist (conf (wl (n + 1) s₁.dist))) with hc | hc
      · rw [hc]
        have := ih.hat_mem
        simp only [List.mem_cons, List.mem_append] at this ⊢
        rcases this with h | h
        · exact Or.inl h
        · exact Or.inr (Or.inl h)
      · rw [hc]; simp

/-- C27: the target is the smallest edge seen so far (or 1) and never increases; each round asks the weak learner
once, unless the limit on the number of rounds has been reached, which ends the run. -/
theorem softboost_target (S : Examples X ℝ) (s₀ : SoftBoost H) (solver : Solver ℝ) (fuel : Nat)
    (wl : WeakLearner ℝ H) (n : Nat) (qs : List (List ℝ)) (s : SoftBoost H)
    (hr : (SoftBoost.booster solver fuel S).Reachable wl s₀ n qs s) :
    (∀ g ∈ 1 :: Spec.edges S conf qs s.hypotheses, s.gammaHat ≤ g) ∧
      s.gammaHat ∈ 1 :: Spec.edges S conf qs s.hypotheses ∧ n ≤ softLimit S s₀ ∧
      ∀ out, (SoftBoost.booster solver fuel S).boost s wl (n + 1) = .ok out →
        out.state.gammaHat ≤ s.gammaHat ∧ (n = softLimit S s₀ → out.flow = .brk n ∧ out.queries = []) ∧
        (n < softLimit S s₀ → out.queries = [s.dist]) := by
  have hi := soft_inv hr
  refine ⟨hi.hat_le, hi.hat_mem, hi.le, fun out hb => ?_⟩
  rcases soft_step hi wl hb with ⟨h1, h2, h3, h4⟩ | ⟨h1, h2, h3, -⟩
  · exact ⟨by rw [h4], fun _ => ⟨h2, h3⟩, fun h => by omega⟩
  · exact ⟨by rw [h3]; exact min_le_left _ _, fun h => by omega, fun _ => h2⟩

/-- C27, C61: `run` is over after at most `max_loop` calls of the weak learner -- whatever the solver answers. -/
theorem softboost_terminates (S : Examples X ℝ) (s₀ : SoftBoost H) (solver : Solver ℝ) (fuel : Nat)
    (wl : WeakLearner ℝ H) :
    ∃ r, (SoftBoost.booster solver fuel S).run wl (softLimit S s₀ + 1) s₀ = some r ∧
      ∀ f qs, r = .ok (f, qs) → qs.length ≤ softLimit S s₀ := by
  obtain ⟨r, hr⟩ := (SoftBoost.booster solver fuel S).run_terminates wl s₀ (softLimit S s₀) (by
    intro qs s out hr hb hf
    obtain ⟨-, -, -, h⟩ := softboost_target S s₀ solver fuel wl _ qs s hr
    rw [((h out hb).2.1 rfl).1] at hf; cases hf)
  refine ⟨r, hr, ?_⟩
  rintro f qs rfl
  obtain ⟨n, qs', s', out, k, h1, h2, h3, h4, h5, h6⟩ := (SoftBoost.booster solver fuel S).run_spec wl s₀ hr
  have hi := soft_inv h1
  obtain ⟨-, -, g1, g2⟩ := softboost_target S s₀ solver fuel wl n qs' s' h1
  rw [h5, List.length_append, hi.qlen]
  obtain ⟨-, a, b⟩ := g2 out h3
  rcases Nat.lt_or_ge n (softLimit S s₀) with c | c
  · rw [b c]; simp; omega
  · rw [(a (by omega)).2]; simp; omega

/-! ## The programs and the distributions -/

theorem holds_softProgram {m : SoftQP.QPModel} {S : Examples X ℝ} {hs : List H} {nu : ℝ} (hm : SoftQP.Holds m S hs nu)
    (hnu : 1 ≤ nu) (g : ℝ) (dist : List ℝ) (hl : dist.length = S.length) (hd : ∀ q ∈ dist, 0 < q) :
    Spec.SoftProgram S hs 1 g dist (m.program g dist) := by
  have hg := hm.isDist g dist hl
  refine ⟨⟨?_, ?_, ?_, ?_, hg.isEq_length⟩, hg.nCols, (dist.sum / 2) / 1, fun d => ⟨?_, fun hl' => ?_⟩⟩
  · rw [hg.A]; exact dist_wellFormed S hs _
  · rw [hg.qlen, hg.nCols]
  · rw [hg.pcols, hg.nCols]
  · rw [hg.rhs, hg.nRows]; simp [rhsOf]; omega
  · rw [SoftQP.feasible_iff hm hnu g dist hl]
    constructor
    · rintro ⟨h1, h2, h4⟩
      exact ⟨h1, ⟨fun p hp => ⟨h2.1 p hp, by have := prob_le_one h2 p hp; linarith⟩, h2.2⟩, h4⟩
    · rintro ⟨h1, h2, h4⟩
      exact ⟨h1, ⟨fun p hp => (h2.1 p hp).1, h2.2⟩, h4⟩
  · rw [hg.objective_eq d hl']
    have h1 := quadPen_taylor dist d S.length hl hl' hd 1 one_pos
    simp only [div_one, mul_one] at h1 ⊢
    exact h1

/-- With a solver that does its job, the distributions are positive probability vectors. -/
theorem soft_dist {S : Examples X ℝ} {s₀ : SoftBoost H} {solver : Solver ℝ} (hsolver : solver.Correct) (hsig : solver.Signals)
    {fuel : Nat} (hfuel : SoftQP.enough S.length ≤ fuel) {wl : WeakLearner ℝ H} {n : Nat} {qs : List (List ℝ)} {s : SoftBoost H}
    (hr : (SoftBoost.booster solver fuel S).Reachable wl s₀ n qs s) : Spec.IsPosProb s.dist := by
  induction hr with
  | start h =>
    have hi := soft_start h
    rw [hi.uni rfl]
    exact SoftQP.uniform_prob S (checkBinary_ne_nil hi.bin)
  | @step n qs s₁ out hr hb hf ih =>
    have hi := soft_inv hr
    rcases soft_step hi wl hb with ⟨-, h, -⟩ | ⟨h1, h2, h3, h4, h5, m, d, b, h6, h7, h8, h9, -⟩
    · rw [h] at hf; cases hf
    obtain ⟨m₀, hm₀, hh⟩ := hi.model
    rw [h6, Option.some.injEq] at hm₀
    subst hm₀
    obtain ⟨d', b', e1, e2, e3, -⟩ := SoftQP.solveLoop_total hsolver hsig (hh.addColumn (wl (n + 1) s₁.dist)) hi.nu1
      out.state.gammaHat fuel s₁.dist (10 ^ 9) hi.dlen ih
      (by have : (0 : ℝ) ≤ S.length := Nat.cast_nonneg _; linarith) (SoftQP.enough_spec _ _ hfuel)
    rw [h9, Except.ok.injEq, Prod.mk.injEq] at e1
    rw [h8, e1.1]; exact e3

/-- C27, the proved part: every weight vector handed to the weak learner is a probability vector over the examples
with positive entries, and no round panics (the inner loop ends). Missing from the full claim: they need not be
capped at `1/ν` (`softboost_cap_not_respected`). -/
theorem softboost_queries_partial (S : Examples X ℝ) (s₀ : SoftBoost H) (solver : Solver ℝ) (hsolver : solver.Correct)
    (hsig : solver.Signals) (fuel : Nat) (hfuel : SoftQP.enough S.length ≤ fuel) (wl : WeakLearner ℝ H) (n : Nat)
    (qs : List (List ℝ)) (s : SoftBoost H) (hr : (SoftBoost.booster solver fuel S).Reachable wl s₀ n qs s) :
    ∃ out, (SoftBoost.booster solver fuel S).boost s wl (n + 1) = .ok out ∧
      ∀ d ∈ out.queries, d.length = S.length ∧ Spec.IsPosProb d := by
  have hi := soft_inv hr
  have hd := soft_dist hsolver hsig hfuel hr
  obtain ⟨m, hm, hh⟩ := hi.model
  have hex : ∃ out, (SoftBoost.booster solver fuel S).boost s wl (n + 1) = .ok out := by
    simp only [SoftBoost.booster, SoftBoost.boost, hm, SoftQP.QPModel.update]
    split
    · exact ⟨_, rfl⟩
    · generalize (if Miniboosts.edge S s.dist (wl (n + 1) s.dist) < s.gammaHat then Miniboosts.edge S s.dist (wl (n + 1) s.dist)
        else s.gammaHat) = g
      obtain ⟨d', b', e1, -⟩ := SoftQP.solveLoop_total hsolver hsig (hh.addColumn (wl (n + 1) s.dist)) hi.nu1
        g fuel s.dist (10 ^ 9) hi.dlen hd
        (by have : (0 : ℝ) ≤ S.length := Nat.cast_nonneg _; linarith) (SoftQP.enough_spec _ _ hfuel)
      rw [e1]
      simp only
      cases b' with
      | true => exact ⟨_, rfl⟩
      | false => exact ⟨_, rfl⟩
  obtain ⟨out, ho⟩ := hex
  refine ⟨out, ho, fun d hdm => ?_⟩
  rcases soft_step hi wl ho with ⟨-, -, h, -⟩ | ⟨-, h, -⟩
  · rw [h] at hdm; simp at hdm
  · rw [h, List.mem_singleton] at hdm
    rw [hdm]; exact ⟨hi.dlen, hd⟩

/-- C27: the only programs that SoftBoost hands to the solver during the rounds are those of the paper *for
`ν = 1`*, whatever `ν` is: minimise the second-order expansion (at the current positive distribution) of the
negative entropy over the probability vectors with entries at most `1`, keeping the edges of the collected
hypotheses at most the target. (Formally: changing the solver on any other program does not change what `boost`
does.) For TotalBoost, where `ν = 1`, this is the full claim. -/
theorem softboost_programs (S : Examples X ℝ) (s₀ : SoftBoost H) (solver : Solver ℝ)
    (hsolver : solver.Correct) (hsig : solver.Signals) (fuel : Nat) (hfuel : SoftQP.enough S.length ≤ fuel)
    (wl : WeakLearner ℝ H) (n : Nat) (qs : List (List ℝ)) (s : SoftBoost H)
    (hr : (SoftBoost.booster solver fuel S).Reachable wl s₀ n qs s) (solver' : Solver ℝ)
    (hagree : ∀ p c, c.length = S.length → Spec.IsPosProb c →
      Spec.SoftProgram S (s.hypotheses ++ [wl (n + 1) s.dist]) 1
        (min s.gammaHat (Spec.edge S s.dist (conf (wl (n + 1) s.dist)))) c p → solver' p = solver p) :
    (SoftBoost.booster solver' fuel S).boost s wl (n + 1) = (SoftBoost.booster solver fuel S).boost s wl (n + 1) := by
  have hi := soft_inv hr
  have hd := soft_dist hsolver hsig hfuel hr
  obtain ⟨m, hm, hh⟩ := hi.model
  have hh' := hh.addColumn (wl (n + 1) s.dist)
  have hg : (if Miniboosts.edge S s.dist (wl (n + 1) s.dist) < s.gammaHat then Miniboosts.edge S s.dist (wl (n + 1) s.dist) else s.gammaHat) =
      min s.gammaHat (Spec.edge S s.dist (conf (wl (n + 1) s.dist))) := by
    rw [edge_eq_spec]
    split
    · rename_i h; rw [min_eq_right h.le]
    · rename_i h; rw [min_eq_left (not_lt.1 h)]
  set g := min s.gammaHat (Spec.edge S s.dist (conf (wl (n + 1) s.dist))) with hgdef
  have hloop : ∀ (fuel : Nat) (dist : List ℝ) (old : ℝ), dist.length = S.length → Spec.IsPosProb dist →
      SoftQP.QPModel.solveLoop solver' (m.addColumn S (wl (n + 1) s.dist)) g fuel dist old =
        SoftQP.QPModel.solveLoop solver (m.addColumn S (wl (n + 1) s.dist)) g fuel dist old := by
    intro fuel
    induction fuel with
    | zero => intro dist old _ _; rfl
    | succ fuel ih =>
      intro dist old hl hp
      have heq := hagree _ dist hl hp (holds_softProgram hh' hi.nu1 g dist hl hp.1)
      simp only [SoftQP.QPModel.solveLoop, heq]
      have c0 : ¬ (dist.any fun d => decide (d ≤ 0)) = true := by
        rw [List.any_eq_true]
        rintro ⟨p, hp', hp2⟩
        have := hp.1 p hp'
        simp at hp2
        linarith
      rw [if_neg c0, if_neg c0]
      by_cases c1 : ((solver ((m.addColumn S (wl (n + 1) s.dist)).program g dist)).x.all fun d => decide (0 < d)) = true
      · have hpos : ∀ q ∈ (solver ((m.addColumn S (wl (n + 1) s.dist)).program g dist)).x, 0 < q := by
          intro q hq
          simpa using List.all_eq_true.1 c1 q hq
        obtain ⟨s1, s2, s3, s4, s5⟩ := SoftQP.step hh' hi.nu1 g dist hl hp hsolver hsig hpos
        rw [SoftQP.updateZip_snd dist _ (by rw [s2, hl])]
        rw [ih _ _ s2 s3]
      · rw [if_pos (by simpa using c1), if_pos (by simpa using c1)]
  simp only [SoftBoost.booster, SoftBoost.boost, hm, SoftQP.QPModel.update, hg]
  rw [hloop fuel s.dist _ hi.dlen hd]

/-! ## The output -/

/-- What is known when `run` has returned, whatever the solver does: the hypotheses are the answers of the weak
learner, there is at least one, and the weights are those of the final linear program. -/
theorem soft_final (S : Examples X ℝ) (s₀ : SoftBoost H) (solver : Solver ℝ) (fuel : Nat) (wl : WeakLearner ℝ H) (k : Nat)
    (f : WeightedMajority ℝ H) (qs : List (List ℝ))
    (hrun : (SoftBoost.booster solver fuel S).run wl k s₀ = some (.ok (f, qs))) :
    ∃ hs : List H, ∃ m, S ≠ [] ∧ 1 ≤ s₀.nu ∧ s₀.nu ≤ S.length ∧ SoftQP.Holds m S hs s₀.nu ∧ hs.length = qs.length ∧
      (∀ i q h, qs[i]? = some q → hs[i]? = some h → h = wl (i + 1) q) ∧ hs ≠ [] ∧
      ∃ w, m.weights solver = .ok w ∧ WeightedMajority.fromSlices w hs = .ok f := by
  obtain ⟨n, qs', s', out, k, h1, h2, h3, h4, h5, h6⟩ := (SoftBoost.booster solver fuel S).run_spec wl s₀ hrun
  have hi := soft_inv h1
  have hS := checkBinary_ne_nil hi.bin
  -- the history
  have hcalls : ∀ {n qs s} (_ : (SoftBoost.booster solver fuel S).Reachable wl s₀ n qs s),
      ∀ i q h, qs[i]? = some q → s.hypotheses[i]? = some h → h = wl (i + 1) q := by
    intro n qs s hr
    induction hr with
    | start _ => intro i q h hq; simp at hq
    | @step n qs s₁ out hr hb hf ih =>
      intro i q h hq hh
      have hi := soft_inv hr
      rcases soft_step hi wl hb with ⟨-, h, -⟩ | ⟨-, g2, -, g3, -⟩
      · rw [h] at hf; cases hf
      rw [g3] at hh
      rw [g2] at hq
      by_cases c : i < n
      · rw [List.getElem?_append_left (by rw [hi.qlen]; exact c)] at hq
        rw [List.getElem?_append_left (by rw [hi.hlen]; exact c)] at hh
        exact ih i q h hq hh
      · rw [List.getElem?_append_right (by rw [hi.qlen]; omega), hi.qlen] at hq
        rw [List.getElem?_append_right (by rw [hi.hlen]; omega), hi.hlen] at hh
        have : i - n = 0 := by
          by_contra hne
          rw [List.getElem?_eq_none (by simp; omega)] at hq; simp at hq
        rw [this] at hq hh
        simp at hq hh
        have hin : i = n := by omega
        subst hin; rw [← hh, ← hq]
  -- the final state
  obtain ⟨hs, m, g1, g2, g3, g4, g5⟩ : ∃ hs m, out.state.hypotheses = hs ∧ out.state.qpModel = some m ∧ SoftQP.Holds m S hs s₀.nu ∧
      hs.length = qs.length ∧ (∀ i q h, qs[i]? = some q → hs[i]? = some h → h = wl (i + 1) q) := by
    rcases soft_step hi wl h3 with ⟨a1, a2, a3, a4⟩ | ⟨a1, a2, a3, a4, a5, m, d, b, a6, a7, a8, a9, -⟩
    · obtain ⟨m, hm, hh⟩ := hi.model
      refine ⟨_, m, by rw [a4], by rw [a4, hm], hh, ?_, ?_⟩
      · rw [h5, a3]; simp [hi.hlen, hi.qlen]
      · rw [h5, a3, List.append_nil]; exact hcalls h1
    · obtain ⟨m₀, hm, hh⟩ := hi.model
      rw [a6, Option.some.injEq] at hm
      subst hm
      refine ⟨_, _, a4, a7, hh.addColumn _, ?_, ?_⟩
      · rw [h5, a2]; simp [hi.hlen, hi.qlen]
      · rw [h5, a2]
        intro i q h hqi hhi
        by_cases c : i < n
        · rw [List.getElem?_append_left (by rw [hi.qlen]; exact c)] at hqi
          rw [List.getElem?_append_left (by rw [hi.hlen]; exact c)] at hhi
          exact hcalls h1 i q h hqi hhi
        · rw [List.getElem?_append_right (by rw [hi.qlen]; omega), hi.qlen] at hqi
          rw [List.getElem?_append_right (by rw [hi.hlen]; omega), hi.hlen] at hhi
          have : i - n = 0 := by
            by_contra hne
            rw [List.getElem?_eq_none (by simp; omega)] at hqi; simp at hqi
          rw [this] at hqi hhi
          simp at hqi hhi
          have hin : i = n := by omega
          subst hin; rw [← hhi, ← hqi]
  have hpost : SoftBoost.postprocess solver out.state = .ok f := h6
  simp only [SoftBoost.postprocess, g2, g1] at hpost
  -- no hypotheses: nothing is returned
  have hne : hs ≠ [] := by
    rintro rfl
    cases hw : m.weights solver with
    | error e => rw [hw] at hpost; simp at hpost
    | ok w =>
      rw [hw] at hpost
      simp only at hpost
      rcases fromSlices_cases w ([] : List H) with ⟨e1, e2⟩ | ⟨e1, e2⟩
      · rw [hpost] at e2; cases e2
      · simp at e1
  cases hw : m.weights solver with
  | error e => rw [hw] at hpost; simp at hpost
  | ok w =>
    rw [hw] at hpost
    exact ⟨hs, m, hS, hi.nu1, hi.nu2, g3, g4, g5, hne, w, hw, hpost⟩

/-- C66: the final linear program is solved for the right problem: `run` returns a convex combination `f` of the
collected hypotheses, and for some `γ` it has soft margin at least `γ`, while some capped distribution gives every
collected hypothesis an edge of at most `γ`. -/
theorem softboost_output (S : Examples X ℝ) (s₀ : SoftBoost H) (solver : Solver ℝ) (hsolver : solver.Correct)
    (fuel : Nat) (wl : WeakLearner ℝ H) (k : Nat) (f : WeightedMajority ℝ H) (qs : List (List ℝ))
    (hrun : (SoftBoost.booster solver fuel S).run wl k s₀ = some (.ok (f, qs))) :
    ∃ hs : List H, ∃ γ : ℝ, ∃ d : List ℝ, hs.length = qs.length ∧
      (∀ i q h, qs[i]? = some q → hs[i]? = some h → h = wl (i + 1) q) ∧
      Spec.IsProb f.weights ∧ (∀ h ∈ f.hypotheses, h ∈ hs) ∧ Spec.SoftMarginGe S s₀.nu (conf f) γ ∧
      d.length = S.length ∧ Spec.IsCapped s₀.nu d ∧ ∀ h ∈ hs, Spec.edge S d (conf h) ≤ γ := by
  obtain ⟨hs, m, hS, hnu1, hnu2, g3, g4, g5, hne, w, hw', hpost⟩ := soft_final S s₀ solver fuel wl k f qs hrun
  have hgam := g3.isGamma
  have hcl : (1 : ℝ) ≤ (S.length : ℝ) * (1 / s₀.nu) := ERLP.cap_length hnu1 hnu2
  obtain ⟨sol, hsol⟩ := hgam.exists_optimal hS hne (fun _ _ => le_rfl) one_pos hcl
  obtain ⟨γ, d, k1, k2, k3, k4, k5, k6, k7, k8, k9, k10⟩ := hgam.optimal (fun _ _ => le_rfl) _ (hsolver _ sol hsol)
  have hw : m.weights solver = .ok ((solver m.lpProgram).z.drop (1 + 2 * S.length)) := by
    unfold SoftQP.QPModel.weights
    rw [g3.nEx]
    simp only
    rw [if_neg (by omega)]
  rw [hw', Except.ok.injEq] at hw
  subst hw
  obtain ⟨f', hf1, hf2, hf3⟩ := fromSlices_prob (X := X) _ _ k7 k8
  rw [hpost, Except.ok.injEq] at hf1
  subst hf1
  have hpen : ∀ d : List ℝ, quadPen S.length (fun _ => 0) (fun _ => 0) d = 0 := by
    intro d; unfold quadPen; simp
  refine ⟨hs, γ, d, g4, g5, hf3, ?_, ?_, k3, ⟨fun p hp => ⟨k4.1 p hp, by have := k5 p hp; linarith⟩, k4.2⟩, k6⟩
  · intro h hh
    rcases fromSlices_cases ((solver m.lpProgram).z.drop (1 + 2 * S.length)) hs with ⟨e1, e2⟩ | ⟨e1, e2⟩
    · rw [hpost] at e2; cases e2
    · rw [hpost, Except.ok.injEq] at e2
      rw [e2] at hh
      simp only [List.mem_map] at hh
      obtain ⟨p, hp, rfl⟩ := hh
      exact (List.of_mem_zip (List.mem_of_mem_filter hp)).2
  · intro d' hd' hcap
    have := k10 d' hd' ⟨fun p hp => (hcap.1 p hp).1, hcap.2⟩ (fun p hp => by rw [one_mul]; exact (hcap.1 p hp).2)
    rw [hpen, hpen, add_zero, add_zero] at this
    have e : Spec.edge S d' (conf f) = Spec.edge S d' (fun x => Spec.vote conf (List.zip ((solver m.lpProgram).z.drop (1 + 2 * S.length)) hs) x) := by
      congr 1
      funext x
      rw [hf2, weightedConf_eq_vote]
    rw [e]; exact this

/-- C66: no convex combination of the collected hypotheses has a better soft margin than the one returned. -/
theorem softboost_output_optimal (S : Examples X ℝ) (s₀ : SoftBoost H) (solver : Solver ℝ) (hsolver : solver.Correct)
    (fuel : Nat) (wl : WeakLearner ℝ H) (k : Nat) (f : WeightedMajority ℝ H) (qs : List (List ℝ))
    (hrun : (SoftBoost.booster solver fuel S).run wl k s₀ = some (.ok (f, qs)))
    (v : List (ℝ × H)) (hv : ∀ p ∈ v, 0 ≤ p.1 ∧ ∃ i q, qs[i]? = some q ∧ p.2 = wl (i + 1) q) (hv1 : (v.map Prod.fst).sum = 1)
    (ρ : ℝ) (hρ : Spec.SoftMarginGe S s₀.nu (Spec.vote conf v) ρ) : Spec.SoftMarginGe S s₀.nu (conf f) ρ := by
  obtain ⟨hs, γ, d, h1, h2, h3, h4, h5, h6, h7, h8⟩ := softboost_output S s₀ solver hsolver fuel wl k f qs hrun
  have e1 := hρ d h6 h7
  have e2 : Spec.edge S d (Spec.vote conf v) ≤ γ := by
    have h2' := LP.pair_edge S (v.map Prod.snd) d (v.map Prod.fst) (by simp)
    rw [zip_map_fst_snd] at h2'
    rw [show Spec.edge S d (Spec.vote conf v) = _ from h2']
    refine LP.weighted_le v (fun p hp => (hv p hp).1) hv1 (fun h => Spec.edge S d (conf h)) _ ?_
    intro p hp
    obtain ⟨i, q, hq, hpq⟩ := (hv p hp).2
    apply h8
    have hi : i < qs.length := (List.getElem?_eq_some_iff.1 hq).1
    have hi' : i < hs.length := by omega
    have := h2 i q hs[i] hq (by simp [hi'])
    rw [hpq, ← this]
    exact List.getElem_mem hi'
  intro d' hd' hcap
  exact (e1.trans e2).trans (h5 d' hd' hcap)

/-! ## No progress -/

/-- C67, a disagreement with the documentation: the constraint handed to the solver is "edge at most `γ̂`" instead of
"edge at most `γ̂ - tolerance`", and the uniform distribution satisfies it. If the weak learner gives the same
answer `h` whenever it is asked with the uniform distribution (as every deterministic learner does), SoftBoost asks
with the uniform distribution in every round and only ever collects copies of `h`. -/
theorem softboost_stuck (S : Examples X ℝ) (s₀ : SoftBoost H) (solver : Solver ℝ) (hsolver : solver.Correct) (fuel : Nat)
    (wl : WeakLearner ℝ H) (h : H) (hdet : ∀ k, wl k (List.replicate S.length (1 / (S.length : ℝ))) = h)
    (hle : Spec.edge S (List.replicate S.length (1 / (S.length : ℝ))) (conf h) ≤ 1)
    (n : Nat) (qs : List (List ℝ)) (s : SoftBoost H) (hr : (SoftBoost.booster solver (fuel + 2) S).Reachable wl s₀ n qs s) :
    s.dist = List.replicate S.length (1 / (S.length : ℝ)) ∧ s.hypotheses = List.replicate n h ∧
      qs = List.replicate n (List.replicate S.length (1 / (S.length : ℝ))) ∧
      (n < softLimit S s₀ → ∃ out, (SoftBoost.booster solver (fuel + 2) S).boost s wl (n + 1) = .ok out ∧ out.flow = .cont) := by
  set u := List.replicate S.length (1 / (S.length : ℝ)) with hu
  -- one round that starts from the uniform distribution
  have key : ∀ {n qs s}, (SoftBoost.booster solver (fuel + 2) S).Reachable wl s₀ n qs s → s.dist = u →
      s.hypotheses = List.replicate n h → Spec.edge S u (conf h) ≤ s.gammaHat → n < softLimit S s₀ →
      ∃ out, (SoftBoost.booster solver (fuel + 2) S).boost s wl (n + 1) = .ok out ∧ out.flow = .cont ∧ out.state.dist = u := by
    intro n qs s hr h1 h2 h3 hn
    have hi := soft_inv hr
    have hS := checkBinary_ne_nil hi.bin
    obtain ⟨m, hm, hh⟩ := hi.model
    have hg : (if Miniboosts.edge S u h < s.gammaHat then Miniboosts.edge S u h else s.gammaHat) = Spec.edge S u (conf h) := by
      rw [edge_eq_spec]
      split
      · rfl
      · rename_i h; exact le_antisymm (not_lt.1 h) h3
    have hst := SoftQP.uniform_stays (hh.addColumn h) hi.nu1 (Spec.edge S u (conf h)) hS (by
      intro h' hh'
      rw [h2, List.mem_append, List.mem_singleton] at hh'
      rcases hh' with hh' | hh'
      · rw [List.eq_of_mem_replicate hh']
      · rw [hh']) hsolver fuel
    rw [← hu] at hst
    refine ⟨{ state := { s with gammaHat := Spec.edge S u (conf h), hypotheses := s.hypotheses ++ [h], qpModel := some (m.addColumn S h), dist := u }, flow := .cont, queries := [s.dist] }, ?_, rfl, rfl⟩
    have hnot : ¬ s.maxIter < n + 1 := by rw [hi.maxIter]; omega
    simp only [SoftBoost.booster, SoftBoost.boost, if_neg hnot, h1, hdet, hg, hm, SoftQP.QPModel.update, hst, if_true]
  have main : s.dist = u ∧ s.hypotheses = List.replicate n h ∧ qs = List.replicate n u ∧ Spec.edge S u (conf h) ≤ s.gammaHat := by
    induction hr with
    | start hp =>
      have hi := soft_start hp
      refine ⟨hi.uni rfl, List.length_eq_zero_iff.1 hi.hlen, rfl, ?_⟩
      have := hi.hat_mem
      simp [Spec.edges] at this
      rw [this]; exact hle
    | @step n qs s₁ out hr' hb hf ih =>
      obtain ⟨i1, i2, i3, i4⟩ := ih
      have hi' := soft_inv hr'
      rcases soft_step hi' wl hb with ⟨-, hc, -⟩ | ⟨a1, a2, a3, a4, -⟩
      · rw [hc] at hf; cases hf
      obtain ⟨out', o1, o2, o3⟩ := key hr' i1 i2 i4 a1
      rw [hb, Except.ok.injEq] at o1
      subst o1
      rw [i1, hdet] at a3 a4
      refine ⟨o3, by rw [a4, i2, List.replicate_succ'], by rw [a2, i3, i1, List.replicate_succ'], ?_⟩
      rw [a3]; exact le_min i4 le_rfl
  obtain ⟨m1, m2, m3, m4⟩ := main
  refine ⟨m1, m2, m3, fun hn => ?_⟩
  obtain ⟨out, o1, o2, -⟩ := key hr m1 m2 m4 hn
  exact ⟨out, o1, o2⟩

/-! ## `run` returns -/

/-- The final linear program has a solution, and the weights it gives make a majority vote. -/
theorem soft_post {S : Examples X ℝ} {solver : Solver ℝ} (hsolver : solver.Correct) {m : SoftQP.QPModel} {hs : List H} {nu : ℝ}
    (hm : SoftQP.Holds m S hs nu) (hS : S ≠ []) (hne : hs ≠ []) (h1 : 1 ≤ nu) (h2 : nu ≤ S.length) (s : SoftBoost H)
    (hq : s.qpModel = some m) (hh : s.hypotheses = hs) : ∃ f, SoftBoost.postprocess solver s = .ok f := by
  have hgam := hm.isGamma
  have hcl : (1 : ℝ) ≤ (S.length : ℝ) * (1 / nu) := ERLP.cap_length h1 h2
  obtain ⟨sol, hsol⟩ := hgam.exists_optimal hS hne (fun _ _ => le_rfl) one_pos hcl
  obtain ⟨γ, d, k1, k2, k3, k4, k5, k6, k7, k8, k9, k10⟩ := hgam.optimal (fun _ _ => le_rfl) _ (hsolver _ sol hsol)
  have hw : m.weights solver = .ok ((solver m.lpProgram).z.drop (1 + 2 * S.length)) := by
    unfold SoftQP.QPModel.weights
    rw [hm.nEx]
    simp only
    rw [if_neg (by omega)]
  obtain ⟨f', hf1, -⟩ := fromSlices_prob (X := X) _ _ k7 k8
  simp only [SoftBoost.postprocess, hq, hw, hh]
  exact ⟨f', hf1⟩

/-- If no round panics and there is at least one round, `run` returns. -/
theorem soft_returns_of (S : Examples X ℝ) (s₀ : SoftBoost H) (solver : Solver ℝ) (hsolver : solver.Correct) (fuel : Nat)
    (wl : WeakLearner ℝ H) (hpre : ∃ s, SoftBoost.preprocess S s₀ = .ok s) (hlim : 0 < softLimit S s₀)
    (hno : ∀ n qs s, (SoftBoost.booster solver fuel S).Reachable wl s₀ n qs s →
      ∃ out, (SoftBoost.booster solver fuel S).boost s wl (n + 1) = .ok out) :
    ∃ f qs, (SoftBoost.booster solver fuel S).run wl (softLimit S s₀ + 1) s₀ = some (.ok (f, qs)) := by
  obtain ⟨r, hr, -⟩ := softboost_terminates S s₀ solver fuel wl
  obtain ⟨s1, hs1⟩ := hpre
  unfold Booster.run at hr ⊢
  rw [show (SoftBoost.booster solver fuel S).preprocess s₀ wl = .ok s1 from hs1] at hr ⊢
  simp only at hr ⊢
  cases hl : (SoftBoost.booster solver fuel S).loop wl (softLimit S s₀ + 1) s1 1 with
  | none => rw [hl] at hr; simp at hr
  | some r' =>
    rcases (SoftBoost.booster solver fuel S).loop_spec wl s₀ (Booster.Reachable.start (B := SoftBoost.booster solver fuel S)
      (wl := wl) (s := s₀) hs1) hl with ⟨n', qs', s', h1, h2, e, h3, h4⟩ | ⟨n', qs', s', out, k, h1, h2, h3, h4, qs, h5, h6⟩
    · obtain ⟨out, g1⟩ := hno n' qs' s' h1
      rw [g1] at h3; cases h3
    · rw [h6]
      simp only
      have hi := soft_inv h1
      have hS := checkBinary_ne_nil hi.bin
      obtain ⟨m, hm, hh⟩ := hi.model
      have hpost : ∃ f, (SoftBoost.booster solver fuel S).postprocess out.state = .ok f := by
        rcases soft_step hi wl h3 with ⟨a1, a2, a3, a4⟩ | ⟨a1, a2, a3, a4, a5, m', d, b, a6, a7, a8, a9, -⟩
        · rw [a4]
          refine soft_post hsolver hh hS ?_ hi.nu1 hi.nu2 s' hm rfl
          intro h0
          have := hi.hlen
          rw [h0] at this
          simp at this; omega
        · rw [a6, Option.some.injEq] at hm
          subst hm
          exact soft_post hsolver (hh.addColumn _) hS (by simp) hi.nu1 hi.nu2 _ a7 a4
      obtain ⟨f, hf⟩ := hpost
      rw [hf]
      exact ⟨f, qs, rfl⟩

/-- The limit on the number of rounds is positive exactly if `ν` is smaller than the number of examples. -/
theorem softLimit_pos (S : Examples X ℝ) (s₀ : SoftBoost H) (h0 : s₀.tolerance ≠ 0) (h1 : 1 ≤ s₀.nu) :
    0 < softLimit S s₀ ↔ s₀.nu < S.length := by
  unfold softLimit
  rw [Nat.ceil_pos]
  have ht : 0 < s₀.tolerance ^ 2 := by positivity
  have hnu : 0 < s₀.nu := by linarith
  constructor
  · intro h
    by_contra hc
    rw [not_lt] at hc
    have : log ((S.length : ℝ) / s₀.nu) ≤ 0 := Real.log_nonpos (by positivity) (by rw [div_le_one hnu]; exact hc)
    have : 2 * log ((S.length : ℝ) / s₀.nu) / s₀.tolerance ^ 2 ≤ 0 := div_nonpos_of_nonpos_of_nonneg (by linarith) ht.le
    linarith
  · intro h
    have : 0 < log ((S.length : ℝ) / s₀.nu) := Real.log_pos (by rw [lt_div_iff₀ hnu]; linarith)
    positivity

/-- C61: with a valid sample, a nonzero tolerance and `1 ≤ ν < n`, and a solver that does its job, `run` returns. -/
theorem softboost_returns (S : Examples X ℝ) (s₀ : SoftBoost H) (hbin : checkBinary S = .ok ()) (htol : s₀.tolerance ≠ 0)
    (hnu1 : 1 ≤ s₀.nu) (hnu2 : s₀.nu < S.length) (solver : Solver ℝ) (hsolver : solver.Correct) (hsig : solver.Signals)
    (fuel : Nat) (hfuel : SoftQP.enough S.length ≤ fuel) (wl : WeakLearner ℝ H) :
    ∃ f qs, (SoftBoost.booster solver fuel S).run wl (softLimit S s₀ + 1) s₀ = some (.ok (f, qs)) :=
  soft_returns_of S s₀ solver hsolver fuel wl ((softboost_preprocess_iff S s₀).2 ⟨hbin, htol, hnu1, hnu2.le⟩)
    ((softLimit_pos S s₀ htol hnu1).2 hnu2) (fun n qs s hr => by
      obtain ⟨out, ho, -⟩ := softboost_queries_partial S s₀ solver hsolver hsig fuel hfuel wl n qs s hr
      exact ⟨out, ho⟩)

/-- C61, a disagreement: `ν = n` is a legal parameter, but then no round is played and `run` panics. -/
theorem softboost_full_cap_panics (S : Examples X ℝ) (s₀ : SoftBoost H) (hbin : checkBinary S = .ok ()) (htol : s₀.tolerance ≠ 0)
    (hnu : s₀.nu = S.length) (solver : Solver ℝ) (fuel : Nat) (wl : WeakLearner ℝ H) (k : Nat) :
    ∃ e, (SoftBoost.booster solver fuel S).run wl (k + 1) s₀ = some (.error e) := by
  have hS := checkBinary_ne_nil hbin
  have h1 : 1 ≤ s₀.nu := by rw [hnu]; exact_mod_cast List.length_pos_iff.2 hS
  obtain ⟨s, hs⟩ := (softboost_preprocess_iff S s₀).2 ⟨hbin, htol, h1, hnu.le⟩
  have hi := soft_start hs
  have hlim : softLimit S s₀ = 0 := by
    by_contra h
    have := (softLimit_pos S s₀ htol h1).1 (Nat.pos_of_ne_zero h)
    linarith
  have hb : (SoftBoost.booster solver fuel S).boost s wl 1 = .ok { state := s, flow := .brk s.maxIter, queries := [] } := by
    simp only [SoftBoost.booster, SoftBoost.boost]
    rw [if_pos (by rw [hi.maxIter, hlim]; omega)]
  have hh : s.hypotheses = [] := List.length_eq_zero_iff.1 hi.hlen
  obtain ⟨m, hm, -⟩ := hi.model
  unfold Booster.run
  rw [show (SoftBoost.booster solver fuel S).preprocess s₀ wl = .ok s from hs]
  simp only [Booster.loop, hb]
  simp only [SoftBoost.booster, SoftBoost.postprocess, hm, hh]
  cases m.weights solver with
  | error e => exact ⟨e, rfl⟩
  | ok w =>
    simp only
    rcases fromSlices_cases w ([] : List H) with ⟨e1, e2⟩ | ⟨e1, e2⟩
    · rw [e2]; exact ⟨_, rfl⟩
    · simp at e1

/-- C67, the consequence for a whole run: SoftBoost plays all its rounds with the uniform distribution, and the
returned vote is the first hypothesis. -/
theorem softboost_stuck_run (S : Examples X ℝ) (s₀ : SoftBoost H) (hbin : checkBinary S = .ok ()) (htol : s₀.tolerance ≠ 0)
    (hnu1 : 1 ≤ s₀.nu) (hnu2 : s₀.nu < S.length) (solver : Solver ℝ) (hsolver : solver.Correct) (fuel : Nat)
    (wl : WeakLearner ℝ H) (h : H) (hdet : ∀ k, wl k (List.replicate S.length (1 / (S.length : ℝ))) = h)
    (hle : Spec.edge S (List.replicate S.length (1 / (S.length : ℝ))) (conf h) ≤ 1) :
    ∃ f, (SoftBoost.booster solver (fuel + 2) S).run wl (softLimit S s₀ + 1) s₀ =
        some (.ok (f, List.replicate (softLimit S s₀) (List.replicate S.length (1 / (S.length : ℝ))))) ∧
      ∀ x : X, (conf f x : ℝ) = conf h x := by
  have hstuck := softboost_stuck S s₀ solver hsolver fuel wl h hdet hle
  have hex : ∀ n qs s, (SoftBoost.booster solver (fuel + 2) S).Reachable wl s₀ n qs s →
      ∃ out, (SoftBoost.booster solver (fuel + 2) S).boost s wl (n + 1) = .ok out ∧
        (n < softLimit S s₀ → out.flow = .cont) := by
    intro n qs s hr
    obtain ⟨-, -, -, h4⟩ := hstuck n qs s hr
    have hi := soft_inv hr
    rcases Nat.lt_or_ge n (softLimit S s₀) with hn | hn
    · obtain ⟨out, o1, o2⟩ := h4 hn
      exact ⟨out, o1, fun _ => o2⟩
    · have hlt : s.maxIter < n + 1 := by rw [hi.maxIter]; omega
      exact ⟨_, by simp only [SoftBoost.booster, SoftBoost.boost, if_pos hlt]; rfl, fun h => by omega⟩
  obtain ⟨f, qs, hrun⟩ := soft_returns_of S s₀ solver hsolver (fuel + 2) wl
    ((softboost_preprocess_iff S s₀).2 ⟨hbin, htol, hnu1, hnu2.le⟩) ((softLimit_pos S s₀ htol hnu1).2 hnu2)
    (fun n qs s hr => by obtain ⟨out, o, -⟩ := hex n qs s hr; exact ⟨out, o⟩)
  obtain ⟨n, qs', s', out, k, h1, h2, h3, h4, h5, h6⟩ := (SoftBoost.booster solver (fuel + 2) S).run_spec wl s₀ hrun
  have hi := soft_inv h1
  obtain ⟨out', o1, o2⟩ := hex n qs' s' h1
  rw [h3, Except.ok.injEq] at o1
  subst o1
  have hn : n = softLimit S s₀ := by
    rcases Nat.lt_or_ge n (softLimit S s₀) with hn | hn
    · rw [o2 hn] at h4; cases h4
    · have := hi.le; omega
  have hq : qs = List.replicate (softLimit S s₀) (List.replicate S.length (1 / (S.length : ℝ))) := by
    rw [h5, (hstuck n qs' s' h1).2.2.1]
    rcases soft_step hi wl h3 with ⟨-, -, a3, -⟩ | ⟨a1, -⟩
    · rw [a3, List.append_nil, hn]
    · omega
  refine ⟨f, by rw [← hq]; exact hrun, ?_⟩
  obtain ⟨hs, γ, d, e1, e2, e3, e4, e5, e6, e7, e8⟩ := softboost_output S s₀ solver hsolver (fuel + 2) wl _ f qs hrun
  have hall : ∀ h' ∈ f.hypotheses, h' = h := by
    intro h' hh'
    obtain ⟨i, hi', hih⟩ := List.getElem_of_mem (e4 h' hh')
    have hiq : i < qs.length := by omega
    have := e2 i qs[i] hs[i] (by simp [hiq]) (by simp [hi'])
    have hu : qs[i] = List.replicate S.length (1 / (S.length : ℝ)) := by
      simp [hq]
    rw [← hih, this, hu, hdet]
  intro x
  have hpost : SoftBoost.postprocess solver out.state = .ok f := h6
  have hlen : f.weights.length = f.hypotheses.length := by
    unfold SoftBoost.postprocess at hpost
    cases hm : out.state.qpModel with
    | none => rw [hm] at hpost; simp at hpost
    | some m =>
      rw [hm] at hpost
      simp only at hpost
      cases hw : m.weights solver with
      | error e => rw [hw] at hpost; simp at hpost
      | ok w =>
        rw [hw] at hpost
        simp only at hpost
        rcases fromSlices_cases w out.state.hypotheses with ⟨a1, a2⟩ | ⟨a1, a2⟩
        · rw [hpost] at a2; cases a2
        · rw [hpost, Except.ok.injEq] at a2
          rw [a2]; simp
  rw [conf_weightedMajority]
  have hz : ∀ (ws : List ℝ) (hs' : List H), ws.length = hs'.length → (∀ h' ∈ hs', h' = h) →
      Spec.vote conf (List.zip ws hs') x = ws.sum * conf h x := by
    intro ws
    induction ws with
    | nil => intro hs' _ _; simp [Spec.vote]
    | cons a ws ih =>
      intro hs' hl hh
      match hs', hl with
      | b :: hs', hl =>
        have := ih hs' (by simpa using hl) (fun h' hm => hh h' (by simp [hm]))
        unfold Spec.vote at this ⊢
        rw [List.zip_cons_cons, List.map_cons, List.sum_cons, this, hh b (by simp), List.sum_cons]
        ring
  rw [hz _ _ hlen hall, e3.2, one_mul]

/-- Three examples. -/
def exThree : Examples Nat ℝ := [(0, 1), (1, -1), (2, 1)]

theorem exThree_valid : checkBinary exThree = .ok () := by
  have h0 : ¬ ((0 : ℝ) ≤ -1) := by norm_num
  have h1 : ⌈(-1 : ℝ)⌉ = -1 := by
    have := Int.ceil_intCast (R := ℝ) (-1); simpa using this
  simp [checkBinary, isValidBinary, exThree, trunc, asI32, h0, h1]

/-- The hypothesis that is wrong on example `i` only. -/
def exWrongAt (i : Nat) : Fn Nat ℝ := ⟨fun x => (if x = 1 then -1 else 1) * (if x = i then -1 else 1)⟩

/-- A weak learner that is wrong on an example of least weight. -/
noncomputable def exMinLearner : WeakLearner ℝ (Fn Nat ℝ) := fun _ d =>
  if d.getD 0 0 ≤ d.getD 1 0 ∧ d.getD 0 0 ≤ d.getD 2 0 then exWrongAt 0
  else if d.getD 1 0 ≤ d.getD 2 0 then exWrongAt 1 else exWrongAt 2

/-- Its edge is at least `1/3` under every distribution. -/
theorem exMinLearner_edge (k : Nat) (d : List ℝ) (hl : d.length = exThree.length) (hd : Spec.IsProb d) :
    1 / 3 ≤ Spec.edge exThree d (conf (exMinLearner k d)) := by
  obtain ⟨a, b, c, rfl⟩ : ∃ a b c, d = [a, b, c] := by
    match d, hl with
    | [a, b, c], _ => exact ⟨a, b, c, rfl⟩
  have hs := hd.2
  simp only [List.sum_cons, List.sum_nil, add_zero] at hs
  simp only [exMinLearner, List.getD_cons_zero, List.getD_cons_succ]
  split
  · rename_i h
    simp [Spec.edge, exThree, conf, exWrongAt]
    linarith [h.1, h.2]
  · rename_i h
    rw [not_and_or, not_le, not_le] at h
    split
    · rename_i h2
      simp [Spec.edge, exThree, conf, exWrongAt]
      rcases h with h | h <;> linarith
    · rename_i h2
      rw [not_le] at h2
      simp [Spec.edge, exThree, conf, exWrongAt]
      rcases h with h | h <;> linarith

/-- C67 is false: with a weak learner of edge at least `1/3` under every distribution, some vote over hypotheses that
it returns has margin `1/3` on every example (so the promised soft margin is at least `1/3 - tolerance`), yet for
every tolerance and every `ν < 3` SoftBoost ends with a hypothesis of margin `-1` on the first example. -/
theorem softboost_guarantee_fails (solver : Solver ℝ) (hsolver : solver.Correct) (fuel : Nat) (s₀ : SoftBoost (Fn Nat ℝ))
    (htol : s₀.tolerance ≠ 0) (hnu1 : 1 ≤ s₀.nu) (hnu2 : s₀.nu < 3) :
    (∀ k d, d.length = exThree.length → Spec.IsProb d → 1 / 3 ≤ Spec.edge exThree d (conf (exMinLearner k d))) ∧
    (∀ e ∈ exThree, e.2 * Spec.vote conf [(1 / 3, exWrongAt 0), (1 / 3, exWrongAt 1), (1 / 3, exWrongAt 2)] e.1 = 1 / 3) ∧
    ∃ f qs, (SoftBoost.booster solver (fuel + 2) exThree).run exMinLearner (softLimit exThree s₀ + 1) s₀ = some (.ok (f, qs)) ∧
      1 * conf f (0 : Nat) = (-1 : ℝ) ∧
      (s₀.nu = 1 → s₀.tolerance < 4 / 3 → ¬ Spec.SoftMarginGe exThree s₀.nu (conf f) (1 / 3 - s₀.tolerance)) := by
  have h3 : (exThree.length : ℝ) = 3 := by simp [exThree]
  obtain ⟨f, hf, hc⟩ := softboost_stuck_run exThree s₀ exThree_valid htol hnu1 (by rw [h3]; exact hnu2) solver hsolver fuel exMinLearner
    (exWrongAt 0) (by
      intro k
      simp [exThree, exMinLearner, List.replicate])
    (by simp [exThree, Spec.edge, conf, exWrongAt, List.replicate]; norm_num)
  refine ⟨exMinLearner_edge, ?_, f, _, hf, ?_, ?_⟩
  · intro e he
    simp only [exThree, List.mem_cons, List.not_mem_nil, or_false] at he
    rcases he with rfl | rfl | rfl <;> simp [Spec.vote, conf, exWrongAt] <;> norm_num
  · rw [hc]; simp [conf, exWrongAt]
  · intro h1 ht hm
    rw [h1] at hm
    have := hm [1, 0, 0] (by simp [exThree]) ⟨by simp, by simp⟩
    have hc' : conf f = fun x : Nat => (conf (exWrongAt 0) x : ℝ) := funext hc
    rw [hc'] at this
    simp [Spec.edge, exThree, conf, exWrongAt] at this
    linarith

/-! ## The cap is not respected -/

/-- The hypothesis with margins `a` and `0` on the two-example sample. -/
def exHalf (a : ℝ) : Fn Nat ℝ := ⟨fun x => if x = 0 then a else 0⟩

/-- A weak learner that answers with edge half as large the second time. -/
noncomputable def exSlow : WeakLearner ℝ (Fn Nat ℝ) := fun k _ => if k = 1 then exHalf 1 else exHalf (1 / 2)

theorem exSoft_optimal {m : SoftQP.QPModel} {nu : ℝ} (hm : SoftQP.Holds m exSample [exHalf 1, exHalf (1 / 2)] nu) (hnu : 1 ≤ nu)
    (a b : ℝ) (ha : 0 < a) (hb : 0 < b) (hw : 0 ≤ log b - log a + (3 / 4) / b - (1 / 4) / a) :
    (m.program (1 / 4) [a, b]).Optimal ⟨[1 / 4, 3 / 4], [-log b - (3 / 4) / b, 0, 0, 0, 0, log b - log a + (3 / 4) / b - (1 / 4) / a, 0],
      (m.program (1 / 4) [a, b]).objective [1 / 4, 3 / 4], .solved⟩ := by
  have hd := hm.isDist (1 / 4) [a, b] rfl
  have hl : exSample.length = 2 := rfl
  constructor
  · refine (SoftQP.feasible_iff hm hnu (1 / 4) [a, b] rfl _).2 ⟨rfl, ⟨?_, ?_⟩, ?_⟩
    · intro p hp; simp at hp; rcases hp with rfl | rfl <;> norm_num
    · norm_num
    · intro h hh
      simp only [List.mem_cons, List.not_mem_nil, or_false] at hh
      rcases hh with rfl | rfl <;> simp [Spec.edge, exSample, exHalf, conf] <;> norm_num
  · rw [hd.nRows]; rfl
  · intro i hi
    have : i < 7 := by
      by_contra hc
      rw [hd.isEq] at hi
      simp only [hl, List.length_cons, List.length_nil] at hi
      rw [if_neg (by omega), if_neg (by omega)] at hi
      cases hi
    rw [hd.isEq] at hi
    interval_cases i <;> simp at hi ⊢
    linarith
  · intro j hj
    rw [hd.nCols, hl] at hj
    rw [hd.p1 _ j (by rw [hl]; exact hj), hd.q1 j (by rw [hl]; exact hj), hd.A, dist_tmulVec exSample _ _ _ j (by rw [hl]; exact hj)]
    have := ha.ne'
    have := hb.ne'
    interval_cases j
    · simp [hl, Finset.sum_range_succ, margins_def, exSample, exHalf, conf]
      field_simp
      ring
    · simp [hl, Finset.sum_range_succ, margins_def, exSample, exHalf, conf]
      field_simp
      ring
  · obtain ⟨s0, s1, s2, s3⟩ := hd.slack [1 / 4, 3 / 4] rfl
    have e5 : (m.program (1 / 4) [a, b]).slack [1 / 4, 3 / 4] 5 = 0 := by
      have := s3 0 (exHalf 1) (by simp)
      rw [show 1 + 2 * exSample.length + 0 = 5 from rfl] at this
      rw [this]; simp [Spec.edge, exSample, exHalf, conf]
    have e0 : (m.program (1 / 4) [a, b]).slack [1 / 4, 3 / 4] 0 = 0 := by rw [s0]; norm_num
    rw [hd.nRows, show 1 + 2 * exSample.length + [exHalf 1, exHalf (1 / 2)].length = 7 from rfl]
    simp [List.range_succ, e5, e0, -one_div]
  · rfl

/-- C27 is false as stated: on two examples with `ν = 3/2`, so that no weight may exceed `2/3`, SoftBoost with any
correct solver hands the weak learner the distribution `(1/4, 3/4)` in its third round. -/
theorem softboost_cap_not_respected (solver : Solver ℝ) (hsolver : solver.Correct) (hsig : solver.Signals) (fuel : Nat)
    (hfuel : SoftQP.enough 2 ≤ fuel + 3) (s₀ : SoftBoost (Fn Nat ℝ)) (hnu : s₀.nu = 3 / 2) (htol : s₀.tolerance = 1 / 10) :
    ∃ qs s out, (SoftBoost.booster solver (fuel + 3) exSample).Reachable exSlow s₀ 2 qs s ∧
      (SoftBoost.booster solver (fuel + 3) exSample).boost s exSlow 3 = .ok out ∧ out.queries = [[1 / 4, 3 / 4]] ∧
      ¬ Spec.IsCapped s₀.nu ([1 / 4, 3 / 4] : List ℝ) := by
  set u : List ℝ := List.replicate exSample.length (1 / (exSample.length : ℝ)) with hu
  have hu2 : u = [1 / 2, 1 / 2] := by simp [hu, exSample, List.replicate]
  have hS : exSample ≠ [] := by simp [exSample]
  have hl2 : exSample.length = 2 := rfl
  have hlim : 2 < softLimit exSample s₀ := by
    unfold softLimit
    rw [Nat.lt_ceil, hnu, htol, hl2]
    have := Real.one_sub_inv_le_log_of_pos (show (0 : ℝ) < ((2 : Nat) : ℝ) / (3 / 2) by norm_num)
    norm_num at this ⊢
    linarith
  obtain ⟨s1, hs1⟩ := (softboost_preprocess_iff exSample s₀).2 ⟨exSample_valid, by rw [htol]; norm_num, by rw [hnu]; norm_num,
    by rw [hnu, hl2]; norm_num⟩
  have hr0 : (SoftBoost.booster solver (fuel + 3) exSample).Reachable exSlow s₀ 0 [] s1 := Booster.Reachable.start hs1
  have hi0 := soft_inv hr0
  have hd0 : s1.dist = u := hi0.uni rfl
  have hh0 : s1.hypotheses = [] := List.length_eq_zero_iff.1 hi0.hlen
  have hg0 : s1.gammaHat = 1 := by
    have := hi0.hat_mem
    rw [hh0] at this
    simpa [Spec.edges] using this
  obtain ⟨m, hm, hh⟩ := hi0.model
  -- round 1
  have hw1 : exSlow (0 + 1) s1.dist = exHalf 1 := by simp [exSlow]
  have he1 : Spec.edge exSample u (conf (exHalf 1)) = 1 / 2 := by
    rw [hu2]; simp [Spec.edge, exSample, exHalf, conf]
  have hst := SoftQP.uniform_stays (hh.addColumn (exHalf 1)) hi0.nu1 (1 / 2) hS (by
    intro h hmem
    rw [hh0] at hmem
    simp only [List.nil_append, List.mem_singleton] at hmem
    rw [hmem, ← hu, he1]) hsolver (fuel + 1)
  rw [← hu] at hst
  obtain ⟨out1, hb1, hf1, hd1, hg1, hh1, hq1, hm1⟩ : ∃ out, SoftBoost.boost solver (fuel + 3) exSample s1 exSlow (0 + 1) = .ok out ∧
      out.flow = .cont ∧ out.state.dist = u ∧ out.state.gammaHat = 1 / 2 ∧ out.state.hypotheses = [exHalf 1] ∧ out.queries = [u] ∧
      out.state.qpModel = some (m.addColumn exSample (exHalf 1)) := by
    refine ⟨_, soft_round hi0 (solver := solver) (fuel := fuel + 3) (d := u) exSlow (by omega) hm (by
      rw [hw1, hd0, he1, hg0, min_eq_right (by norm_num)]; exact hst), rfl, rfl, ?_, ?_, by simp [hd0], ?_⟩
    · simp only; rw [hw1, hd0, he1, hg0, min_eq_right (by norm_num)]
    · simp only; rw [hw1, hh0]; rfl
    · simp only; rw [hw1]
  have hr1 := Booster.Reachable.step hr0 (show (SoftBoost.booster solver (fuel + 3) exSample).boost s1 exSlow (0 + 1) = .ok out1 from hb1) hf1
  have hi1 := soft_inv hr1
  -- round 2
  have hw2 : exSlow (0 + 1 + 1) out1.state.dist = exHalf (1 / 2) := by simp [exSlow]
  have he2 : Spec.edge exSample u (conf (exHalf (1 / 2))) = 1 / 4 := by
    rw [hu2]; simp [Spec.edge, exSample, exHalf, conf]; norm_num
  have hh2 := (hh.addColumn (exHalf 1)).addColumn (exHalf (1 / 2))
  rw [hh0] at hh2
  set m2 := (m.addColumn exSample (exHalf 1)).addColumn exSample (exHalf (1 / 2)) with hm2
  have hh2' : SoftQP.Holds m2 exSample [exHalf 1, exHalf (1 / 2)] s₀.nu := hh2
  have hsol : ∀ a b : ℝ, 0 < a → 0 < b → 0 ≤ log b - log a + (3 / 4) / b - (1 / 4) / a →
      (solver (m2.program (1 / 4) [a, b])).x = [1 / 4, 3 / 4] ∧
      (solver (m2.program (1 / 4) [a, b])).objVal = (m2.program (1 / 4) [a, b]).objective [1 / 4, 3 / 4] := by
    intro a b ha hb hw
    have hopt := exSoft_optimal hh2' hi0.nu1 a b ha hb hw
    refine (hh2'.isDist (1 / 4) [a, b] rfl).unique (fun i hi => ?_) (hsolver _ _ hopt) hopt
    rw [hl2] at hi
    interval_cases i <;> simp [ha, hb]
  obtain ⟨p1, p2⟩ := hsol (1 / 2) (1 / 2) (by norm_num) (by norm_num) (by rw [sub_self]; norm_num)
  obtain ⟨q1, q2⟩ := hsol (1 / 4) (3 / 4) (by norm_num) (by norm_num) (by
    have : log (1 / 4) ≤ log (3 / 4 : ℝ) := Real.log_le_log (by norm_num) (by norm_num)
    norm_num at this ⊢; linarith)
  have hobj : (m2.program (1 / 4) [1 / 2, 1 / 2]).objective [1 / 4, 3 / 4] ≤ 1 := by
    rw [(hh2'.isDist (1 / 4) [1 / 2, 1 / 2] rfl).objective_eq _ rfl]
    have : log (1 / 2 : ℝ) ≤ 0 := Real.log_nonpos (by norm_num) (by norm_num)
    simp [quadPen, hl2, Finset.sum_range_succ] at this ⊢
    linarith
  have htol1 : SoftQP.qpTolerance ≤ 1 := by unfold SoftQP.qpTolerance; norm_num
  have htol0 : 0 < SoftQP.qpTolerance := by unfold SoftQP.qpTolerance; norm_num
  have hpos : ∀ {a b : ℝ}, 0 < a → 0 < b → ¬ (([a, b] : List ℝ).any fun d => decide (d ≤ 0)) = true := by
    intro a b ha hb; simp [not_le.2 ha, not_le.2 hb]
  have hall : ¬ ¬ (([1 / 4, 3 / 4] : List ℝ).all fun d => decide (0 < d)) = true := by norm_num
  have hz1 : updateZip (fun _ s => s) ([1 / 2, 1 / 2] : List ℝ) ([1 / 4, 3 / 4] : List ℝ) = [1 / 4, 3 / 4] := rfl
  have hz2 : updateZip (fun _ s => s) ([1 / 4, 3 / 4] : List ℝ) ([1 / 4, 3 / 4] : List ℝ) = [1 / 4, 3 / 4] := rfl
  have hloop : SoftQP.QPModel.solveLoop solver m2 (1 / 4) (fuel + 3) [1 / 2, 1 / 2] (10 ^ 9) = .ok ([1 / 4, 3 / 4], true) := by
    simp only [SoftQP.QPModel.solveLoop]
    rw [if_neg (hpos (by norm_num) (by norm_num)), p1, if_neg hall, hz1, p2,
      if_neg (by rw [not_lt]; linarith), if_neg (hpos (by norm_num) (by norm_num)), q1, if_neg hall, hz2, q2]
    split
    · rfl
    · rw [if_neg (hpos (by norm_num) (by norm_num)), q1, if_neg hall, hz2, if_pos (by rw [sub_self]; exact htol0)]
  obtain ⟨out2, hb2, hf2, hd2⟩ : ∃ out, SoftBoost.boost solver (fuel + 3) exSample out1.state exSlow (0 + 1 + 1) = .ok out ∧
      out.flow = .cont ∧ out.state.dist = [1 / 4, 3 / 4] := by
    refine ⟨_, soft_round hi1 (solver := solver) (fuel := fuel + 3) (d := [1 / 4, 3 / 4]) exSlow (by omega) hm1 (by
      rw [hw2, hd1, he2, hg1, min_eq_right (by norm_num), hu2]; exact hloop), rfl, rfl⟩
  have hr2 := Booster.Reachable.step hr1 (show (SoftBoost.booster solver (fuel + 3) exSample).boost out1.state exSlow (0 + 1 + 1) = .ok out2 from hb2) hf2
  have hi2 := soft_inv hr2
  obtain ⟨out3, hb3, -⟩ := softboost_queries_partial exSample s₀ solver hsolver hsig (fuel + 3) hfuel exSlow _ _ _ hr2
  refine ⟨_, _, out3, hr2, hb3, ?_, ?_⟩
  · have hb3' : SoftBoost.boost solver (fuel + 3) exSample out2.state exSlow (0 + 1 + 1 + 1) = .ok out3 := hb3
    rcases soft_step hi2 exSlow hb3' with ⟨a1, -⟩ | ⟨-, a2, -⟩
    · omega
    · rw [a2, hd2]
  · intro hc
    have := (hc.1 (3 / 4) (by simp)).2
    rw [hnu] at this
    norm_num at this

/-! ## History independence; TotalBoost -/

/-- C52: the outcome of `run` depends only on the parameters, not on what earlier runs left behind. -/
theorem softboost_history_independent (S : Examples X ℝ) (s t : SoftBoost H) (solver : Solver ℝ) (fuel : Nat) (wl : WeakLearner ℝ H)
    (k : Nat) (hnu : s.nu = t.nu) (htol : s.tolerance = t.tolerance) :
    (SoftBoost.booster solver fuel S).run wl k s = (SoftBoost.booster solver fuel S).run wl k t := by
  refine (SoftBoost.booster solver fuel S).run_congr wl (fun a b => { a with weights := [] } = { b with weights := [] }) ?_ ?_ s t ?_ k
  · rintro ⟨a1, a2, a3, a4, a5, a6, a7, a8, a9, a10⟩ ⟨b1, b2, b3, b4, b5, b6, b7, b8, b9, b10⟩ it h
    simp only [SoftBoost.mk.injEq, and_true] at h
    obtain ⟨rfl, rfl, rfl, rfl, rfl, rfl, rfl, rfl, rfl⟩ := h
    simp only [SoftBoost.booster, SoftBoost.boost]
    by_cases c1 : a8 < it
    · simp only [if_pos c1]; right; exact ⟨_, _, rfl, rfl, rfl, rfl, rfl⟩
    simp only [if_neg c1]
    generalize (if Miniboosts.edge S a1 (wl it a1) < a2 then Miniboosts.edge S a1 (wl it a1) else a2) = g
    cases a6 with
    | none => left; exact ⟨_, rfl, rfl⟩
    | some m =>
      simp only
      cases hu : m.update solver fuel S a1 g (wl it a1) with
      | error e => left; exact ⟨e, rfl, rfl⟩
      | ok r =>
        obtain ⟨m', d, b⟩ := r
        cases b with
        | true => right; exact ⟨_, _, rfl, rfl, rfl, rfl, rfl⟩
        | false => right; exact ⟨_, _, rfl, rfl, rfl, rfl, rfl⟩
  · rintro a b h
    simp only [SoftBoost.mk.injEq, and_true] at h
    simp only [SoftBoost.booster, SoftBoost.postprocess, h.2.2.2.2.2.1, h.2.2.2.2.2.2.1]
  · simp only [SoftBoost.booster, SoftBoost.preprocess, SoftBoost.initSolver, SoftBoost.maxLoop, hnu, htol]
    cases checkBinary S with
    | error e => left; exact ⟨e, rfl, rfl⟩
    | ok _ =>
      simp only
      by_cases c2 : t.tolerance = 0
      · simp only [if_pos c2]; left; exact ⟨_, rfl, rfl⟩
      · simp only [if_neg c2]
        cases checkNu t.nu S.length with
        | error e => left; exact ⟨e, rfl, rfl⟩
        | ok _ => right; exact ⟨_, _, rfl, rfl, rfl⟩

/-- C27: `TotalBoost` is SoftBoost with `ν = 1`: `TotalBoost::init` wraps a SoftBoost with `ν = 1` and tolerance
`1/n`, `tolerance` changes the tolerance only, and `run` does what SoftBoost's does. -/
theorem totalboost_is_softboost (S : Examples X ℝ) (solver : Solver ℝ) (fuel : Nat) (wl : WeakLearner ℝ H) :
    (∀ t : TotalBoost H, TotalBoost.init S = .ok t → t.softboost.nu = 1 ∧ t.softboost.tolerance = 1 / (S.length : ℝ)) ∧
    ((∃ t : TotalBoost H, TotalBoost.init S = .ok t) ↔ S ≠ []) ∧
    (∀ (t : TotalBoost H) tol, (t.setTolerance tol).softboost.nu = t.softboost.nu ∧ (t.setTolerance tol).softboost.tolerance = tol) ∧
    ∀ (t : TotalBoost H) k, (TotalBoost.booster solver fuel S).run wl k t = (SoftBoost.booster solver fuel S).run wl k t.softboost := by
  have hinit : ∀ s : SoftBoost H, SoftBoost.init S = .ok s → s.nu = 1 ∧ s.tolerance = 1 / (S.length : ℝ) ∧ S ≠ [] := by
    intro s hs
    unfold SoftBoost.init at hs
    by_cases h : S.length = 0
    · rw [if_pos h] at hs; cases hs
    · rw [if_neg h, Except.ok.injEq] at hs
      rw [← hs]; exact ⟨rfl, rfl, by rintro rfl; simp at h⟩
  refine ⟨?_, ?_, fun t tol => ⟨rfl, rfl⟩, ?_⟩
  · intro t ht
    unfold TotalBoost.init at ht
    cases hs : (SoftBoost.init S : Except Panic (SoftBoost H)) with
    | error e => rw [hs] at ht; simp at ht
    | ok s =>
      rw [hs] at ht
      simp only [SoftBoost.setNu] at ht
      by_cases h : (1 : ℝ) ≤ 1 ∧ (1 : ℝ) ≤ (S.length : ℝ)
      · rw [if_pos h] at ht
        simp only [Except.ok.injEq] at ht
        rw [← ht]
        exact ⟨rfl, (hinit s hs).2.1⟩
      · rw [if_neg h] at ht; simp at ht
  · constructor
    · rintro ⟨t, ht⟩
      unfold TotalBoost.init at ht
      cases hs : (SoftBoost.init S : Except Panic (SoftBoost H)) with
      | error e => rw [hs] at ht; simp at ht
      | ok s => exact (hinit s hs).2.2
    · intro hS
      have hl : 1 ≤ S.length := List.length_pos_iff.2 hS
      have h : (1 : ℝ) ≤ 1 ∧ (1 : ℝ) ≤ (S.length : ℝ) := ⟨le_rfl, by exact_mod_cast hl⟩
      unfold TotalBoost.init SoftBoost.init
      rw [if_neg (by omega)]
      simp only [SoftBoost.setNu, if_pos h]
      exact ⟨_, rfl⟩
  · intro t k
    have hloop : ∀ k (s : SoftBoost H) it, (TotalBoost.booster solver fuel S).loop wl k ⟨s⟩ it =
        ((SoftBoost.booster solver fuel S).loop wl k s it).map (fun r => r.map fun p => (⟨p.1⟩, p.2)) := by
      intro k
      induction k with
      | zero => intro s it; rfl
      | succ k ih =>
        intro s it
        have hb0 : (TotalBoost.booster solver fuel S).boost ⟨s⟩ wl it = ((SoftBoost.booster solver fuel S).boost s wl it).map
          fun o => { state := ⟨o.state⟩, flow := o.flow, queries := o.queries } := rfl
        simp only [Booster.loop, hb0]
        cases hb : (SoftBoost.booster solver fuel S).boost s wl it with
        | error e => rfl
        | ok out =>
          simp only [Except.map]
          cases hf : out.flow with
          | brk n => rfl
          | cont =>
            simp only
            rw [ih out.state (it + 1)]
            cases (SoftBoost.booster solver fuel S).loop wl k out.state (it + 1) with
            | none => rfl
            | some r => cases r <;> rfl
    unfold Booster.run
    rw [show (TotalBoost.booster solver fuel S).preprocess t wl = ((SoftBoost.booster solver fuel S).preprocess t.softboost wl).map TotalBoost.mk from rfl]
    cases hp : (SoftBoost.booster solver fuel S).preprocess t.softboost wl with
    | error e => rfl
    | ok s =>
      simp only [Except.map]
      rw [hloop k s 1]
      cases (SoftBoost.booster solver fuel S).loop wl k s 1 with
      | none => rfl
      | some r =>
        cases r with
        | error e => rfl
        | ok p => rfl

/-! ## Cases that meet the hypotheses -/

/-- There is a solver that is correct and signals that there is nothing to find. -/
theorem exists_correct_signalling_solver : ∃ solver : Solver ℝ, solver.Correct ∧ solver.Signals := by
  classical
  refine ⟨fun p => if h : ∃ s, p.Optimal s then h.choose else ⟨[0], [], 0, .other⟩, ?_, ?_⟩
  · intro p s hs
    have h : ∃ s, p.Optimal s := ⟨s, hs⟩
    simp only [dif_pos h]
    exact h.choose_spec
  · intro p hp
    have h : ¬ ∃ s, p.Optimal s := fun ⟨s, hs⟩ => hp s hs
    simp only [dif_neg h]
    exact ⟨0, by simp, le_rfl⟩

/-- The assumptions are met together: TotalBoost on the three-example sample, with any weak learner. -/
example (wl : WeakLearner ℝ (Fn Nat ℝ)) : ∃ (solver : Solver ℝ) (t : TotalBoost (Fn Nat ℝ)) (f : WeightedMajority ℝ (Fn Nat ℝ)) (qs : List (List ℝ)),
    solver.Correct ∧ solver.Signals ∧ TotalBoost.init exThree = .ok t ∧
    (TotalBoost.booster solver (SoftQP.enough 3) exThree).run wl (softLimit exThree t.softboost + 1) t = some (.ok (f, qs)) := by
  obtain ⟨solver, h1, h2⟩ := exists_correct_signalling_solver
  obtain ⟨k1, k2, -, k4⟩ := totalboost_is_softboost exThree solver (SoftQP.enough 3) wl
  obtain ⟨t, ht⟩ := k2.2 (by simp [exThree])
  obtain ⟨e1, e2⟩ := k1 t ht
  obtain ⟨f, qs, hf⟩ := softboost_returns exThree t.softboost exThree_valid (by rw [e2]; simp [exThree]) (by rw [e1])
    (by rw [e1]; simp [exThree]) solver h1 h2 (SoftQP.enough 3) le_rfl wl
  exact ⟨solver, t, f, qs, h1, h2, ht, by rw [k4]; exact hf⟩

end Miniboosts.Props
