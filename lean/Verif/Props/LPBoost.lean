import Verif.Lemmas.LPBoostExists
import Verif.Props.AdaBoost

/-! # Properties of LPBoost (C25, C26, C52) -/

namespace Miniboosts.Props

open LPBoost

/-! ## The optimality conditions mean what they say -/

/-- Sanity of the notion of solution: a pair that satisfies the optimality conditions of a linear program is a
minimiser among all feasible points. -/
theorem optimal_is_minimum {K : Type*} [Field K] [LinearOrder K] [IsStrictOrderedRing K] (p : Program K) (n : Nat)
    (hP : p.P = Csc.zeros n) (hA : p.A.WellFormed) (hc : (Program.isEq p.cones).length = p.A.nRows)
    (s : Solution K) (ho : p.Optimal s) : p.Feasible s.x ∧ s.objVal = p.objective s.x ∧
      ∀ x, p.Feasible x → s.objVal ≤ p.objective x := by
  refine ⟨ho.feasible, ho.value, ?_⟩
  intro x hx
  rw [ho.lin_value n hP hA, p.lin_dual n hP hA s.x s.z ho.stationary x hx.1]
  have : 0 ≤ ∑ i ∈ Finset.range p.A.nRows, s.z.getD i 0 * p.slack x i := by
    apply Finset.sum_nonneg
    intro i hi
    have hi := Finset.mem_range.1 hi
    obtain ⟨b, hb⟩ : ∃ b, (Program.isEq p.cones)[i]? = some b := ⟨_, List.getElem?_eq_getElem (by omega)⟩
    have h1 := hx.2 i b hb
    cases b with
    | true => rw [h1.1 rfl, mul_zero]
    | false => exact mul_nonneg (ho.dual i hb) (h1.2 rfl)
  linarith

section program

variable {K : Type*} [Field K] [LinearOrder K] [IsStrictOrderedRing K] {H X : Type*} [Classifier H X K]

/-- C25: the data handed to the solver are consistent: the constraint matrix is a valid compressed-column
matrix, and the dimensions of objective, matrix, right-hand side and cones agree. -/
theorem lpboost_program_wellFormed (S : Examples X K) (nu : K) (hs : List H) :
    let p := LPBoost.program S nu hs
    p.A.WellFormed ∧ p.q.length = p.A.nCols ∧ p.P.nCols = p.A.nCols ∧ p.b.length = p.A.nRows ∧
      (Program.isEq p.cones).length = p.A.nRows := by
  intro p
  obtain ⟨d1, d2, d3, d4, d5, d6⟩ := LP.program_dims S nu hs
  refine ⟨LP.program_wellFormed S nu hs, ?_, ?_, ?_, ?_⟩
  · show (LPBoost.program S nu hs).q.length = (LPBoost.program S nu hs).A.nCols
    rw [d2, d4]; simp
  · show (LPBoost.program S nu hs).P.nCols = (LPBoost.program S nu hs).A.nCols
    rw [d2, d3]; simp only [Csc.zeros]; omega
  · show (LPBoost.program S nu hs).b.length = (LPBoost.program S nu hs).A.nRows
    rw [d1, d5]; simp
  · show (Program.isEq (LPBoost.program S nu hs).cones).length = (LPBoost.program S nu hs).A.nRows
    rw [d1, d6]; simp [Program.isEq]; omega

/-- C25, what the program is: its points are the triples `(ρ, ξ, w)` with `ξ ≥ 0`, `w` convex weights on the
hypotheses and `y_i f_w(x_i) ≥ ρ - ξ_i` for every example, as documented; but the objective, to be minimised, is
`-ρ + ν Σ ξ_i`, where the documentation has `-ρ + (1/ν) Σ ξ_i`. -/
theorem lpboost_program_meaning (S : Examples X K) (nu : K) (hs : List H) (ρ : K) (ξ w : List K)
    (hξ : ξ.length = S.length) (hw : w.length = hs.length) :
    ((LPBoost.program S nu hs).Feasible (ρ :: (ξ ++ w)) ↔
      (∀ r ∈ ξ, 0 ≤ r) ∧ Spec.IsProb w ∧
        ∀ i e, S[i]? = some e → ρ - ξ.getD i 0 ≤ e.2 * Spec.vote conf (List.zip w hs) e.1) ∧
    (LPBoost.program S nu hs).objective (ρ :: (ξ ++ w)) = -ρ + nu * ξ.sum :=
  ⟨LP.feasible_iff S nu hs ρ ξ w hξ hw, LP.objective_eq S nu hs ρ ξ w hξ⟩

/-- The multipliers `z` are feasible for the dual of the program: right length, right signs, and the gradient of
the Lagrangian vanishes. -/
def DualFeasible (p : Program K) (z : List K) : Prop :=
  z.length = p.A.nRows ∧ (∀ i, (Program.isEq p.cones)[i]? = some false → 0 ≤ z.getD i 0) ∧
    ∀ j, j < p.A.nCols → p.q.getD j 0 + p.A.tmulVec z j = 0

/-- C25, the proved part: the distributions over the examples that the program can produce (the first multipliers
of a dual feasible vector) are exactly the probability vectors. Missing from the full claim: they are not
capped at `1/ν`; the bound that the program imposes is `ν ≥ 1`, which says nothing
(`lpboost_cap_not_respected`). -/
theorem lpboost_dual_partial (S : Examples X K) (nu : K) (hnu : 1 ≤ nu) (hs : List H) (d : List K)
    (hl : d.length = S.length) :
    (∃ z, DualFeasible (LPBoost.program S nu hs) z ∧ z.take S.length = d) ↔ Spec.IsProb d := by
  constructor
  · rintro ⟨z, ⟨h1, h2, h3⟩, rfl⟩
    refine (LP.multipliers S nu hs [] z h1 h2 ?_).2.1
    intro j hj
    rw [(LP.program_dims S nu hs).2.2.1, Csc.zeros_tmulVec, zero_add]
    exact h3 j hj
  · intro hd
    -- the largest edge, or anything if there is no hypothesis
    obtain ⟨γ, hγ⟩ : ∃ γ, ∀ h ∈ hs, Spec.edge S d (conf h) ≤ γ := by
      clear hl hd
      induction hs with
      | nil => exact ⟨0, by simp⟩
      | cons h hs ih =>
        obtain ⟨γ, hγ⟩ := ih
        refine ⟨max γ (Spec.edge S d (conf h)), ?_⟩
        intro k hk
        rcases List.mem_cons.1 hk with rfl | hk
        · exact le_max_right _ _
        · exact (hγ k hk).trans (le_max_left _ _)
    obtain ⟨d1, d2, d3, d4, d5, d6⟩ := LP.program_dims S nu hs
    obtain ⟨q1, q2, q3⟩ := LP.q_getD S nu hs
    set z := d ++ (γ :: (d.map (fun p => nu - p) ++ hs.map fun h => γ - Spec.edge S d (conf h))) with hz
    have z1 : ∀ i, i < S.length → z.getD i 0 = d.getD i 0 := by
      intro i hi
      rw [hz, List.getD_append _ _ _ _ (by omega)]
    have z2 : z.getD S.length 0 = γ := by
      rw [hz, List.getD_append_right _ _ _ _ (by omega), hl, Nat.sub_self]; rfl
    have z3 : ∀ r, r < S.length → z.getD (S.length + 1 + r) 0 = nu - d.getD r 0 := by
      intro r hr
      rw [hz, List.getD_append_right _ _ _ _ (by omega), hl, show S.length + 1 + r - S.length = r + 1 by omega,
        List.getD_cons_succ, List.getD_append _ _ _ _ (by simp; omega)]
      simp [List.getD_eq_getElem?_getD, hl, hr]
    have z4 : ∀ k h, hs[k]? = some h → z.getD (2 * S.length + 1 + k) 0 = γ - Spec.edge S d (conf h) := by
      intro k h hk
      rw [hz, List.getD_append_right _ _ _ _ (by omega), hl,
        show 2 * S.length + 1 + k - S.length = S.length + k + 1 by omega,
        List.getD_cons_succ, List.getD_append_right _ _ _ _ (by simp; omega)]
      simp [List.getD_eq_getElem?_getD, hl, hk]
    obtain ⟨t1, t2, t3⟩ := LP.program_tmulVec S nu hs z
    refine ⟨z, ⟨by rw [d1]; simp [hz, hl]; omega, ?_, ?_⟩, by rw [hz, ← hl]; simp⟩
    · intro i hi
      rw [LP.program_isEq] at hi
      by_cases c1 : i < S.length
      · rw [z1 i c1]
        exact hd.1 _ (LP.getD_mem d i (by omega))
      · rw [if_neg c1] at hi
        by_cases c2 : i = S.length
        · rw [if_pos c2] at hi; cases hi
        · rw [if_neg c2] at hi
          by_cases c3 : i < 2 * S.length + hs.length + 1
          · by_cases c4 : i < 2 * S.length + 1
            · obtain ⟨r, rfl⟩ : ∃ r, i = S.length + 1 + r := ⟨i - (S.length + 1), by omega⟩
              rw [z3 r (by omega)]
              have := LP.prob_le_one hd _ (LP.getD_mem d r (by omega))
              linarith
            · obtain ⟨k, rfl⟩ : ∃ k, i = 2 * S.length + 1 + k := ⟨i - (2 * S.length + 1), by omega⟩
              have hk : k < hs.length := by omega
              rw [z4 k hs[k] (by simp [hk])]
              have := hγ hs[k] (List.getElem_mem hk)
              linarith
          · rw [if_neg c3] at hi; cases hi
    · intro j hj
      rw [d2] at hj
      by_cases c0 : j = 0
      · subst c0
        rw [q1, t1, Finset.sum_congr rfl fun i hi => z1 i (Finset.mem_range.1 hi)]
        have := LP.sum_getD d
        rw [hl, hd.2] at this
        rw [← this]; ring
      · by_cases c1 : j < 1 + S.length
        · obtain ⟨r, rfl⟩ : ∃ r, j = 1 + r := ⟨j - 1, by omega⟩
          rw [q2 r (by omega), t2 r (by omega), z1 r (by omega), z3 r (by omega)]; ring
        · obtain ⟨k, rfl⟩ : ∃ k, j = 1 + S.length + k := ⟨j - (1 + S.length), by omega⟩
          have hk : k < hs.length := by omega
          have hk' : hs[k]? = some hs[k] := by simp [hk]
          rw [q3 k, t3 k hs[k] hk', z2, z4 k hs[k] hk', LP.edge_sum S d hs[k] (by omega),
            Finset.sum_congr rfl fun i hi => by rw [z1 i (Finset.mem_range.1 hi)]]
          ring

/-- C25: any answer of the solver that satisfies the optimality conditions is a certificate for the best
*hard* margin, whatever `ν` is: the distribution is a probability vector under which no hypothesis has an edge
above the returned value, the weights are convex, and their vote has margin at least the returned value on every
example. -/
theorem lpboost_solution_hard_margin (S : Examples X K) (nu : K) (hnu : 1 ≤ nu) (hs : List H) (s : Solution K)
    (ho : (LPBoost.program S nu hs).Optimal s) :
    Spec.HardMarginPair S hs (s.z.take S.length) (s.x.drop (1 + S.length)) (-s.objVal) :=
  (LP.optimal_pair S nu hnu hs s ho).2.2

end program

variable {H X : Type*} [Classifier H X ℝ]

/-- C25: the program always has an optimal primal-dual pair, so a correct solver returns one. -/
theorem lpboost_solver_answers (S : Examples X ℝ) (hS : S ≠ []) (nu : ℝ) (hnu : 1 ≤ nu) (hs : List H) (hhs : hs ≠ [])
    (solver : Solver ℝ) (hsolver : solver.Correct) :
    (LPBoost.program S nu hs).Optimal (solver (LPBoost.program S nu hs)) := by
  obtain ⟨s, hs'⟩ := LP.exists_optimal S hS nu hnu hs hhs
  exact hsolver _ s hs'

/-! ## Rounds -/

/-- What holds between rounds of a run of LPBoost started from `s₀`. -/
structure LPInv (S : Examples X ℝ) (s₀ : LPBoost ℝ H) (n : Nat) (qs : List (List ℝ)) (s : LPBoost ℝ H) : Prop where
  ne : S ≠ []
  nu1 : 1 ≤ s₀.nu
  tol : s.tolerance = s₀.tolerance
  hlen : s.hypotheses.length = n
  qlen : qs.length = n
  dlen : s.dist.length = S.length
  dprob : Spec.IsProb s.dist
  model : ∃ m, s.lpModel = some m ∧ { m with weights := [], dist := [] } = LPModel.after S s₀.nu s.hypotheses ∧
    (1 ≤ n → m.dist = s.dist ∧ ∃ γ, Spec.HardMarginPair S s.hypotheses s.dist m.weights γ ∧
      γ < s.gammaHat - s₀.tolerance)
  hat_le : s.gammaHat ≤ 1 ∧ ∀ g ∈ Spec.edges S conf qs s.hypotheses, s.gammaHat ≤ g
  hat_mem : s.gammaHat = 1 ∨ s.gammaHat ∈ Spec.edges S conf qs s.hypotheses

theorem after_program (m : LPModel ℝ) {S : Examples X ℝ} {nu : ℝ} {hs : List H}
    (h : { m with weights := [], dist := [] } = LPModel.after S nu hs) :
    m.program = LPBoost.program S nu hs ∧ m.nExamples = S.length := by
  constructor
  · unfold LPBoost.program; rw [← h]; rfl
  · have := (LP.after_spec S nu hs).1
    rw [← h] at this; exact this

theorem after_addColumn (m : LPModel ℝ) {S : Examples X ℝ} {nu : ℝ} {hs : List H} (h : H)
    (hm : { m with weights := [], dist := [] } = LPModel.after S nu hs) :
    { m.addColumn S h with weights := [], dist := [] } = LPModel.after S nu (hs ++ [h]) := by
  unfold LPModel.after at hm ⊢
  rw [List.foldl_append, ← hm]
  simp [LPModel.addColumn]

theorem lp_start {S : Examples X ℝ} {s₀ s : LPBoost ℝ H} (hn : s₀.nSample = S.length)
    (h : LPBoost.preprocess S s₀ = .ok s) : LPInv S s₀ 0 [] s := by
  unfold LPBoost.preprocess at h
  cases hc : checkBinary S with
  | error e => rw [hc] at h; simp at h
  | ok _ =>
    rw [hc] at h
    have hne := checkBinary_ne_nil hc
    by_cases hnu : 1 ≤ s₀.nu ∧ s₀.nu ≤ (S.length : ℝ)
    · simp only [LPBoost.initSolver, if_pos hnu, Except.ok.injEq] at h
      subst h
      have hpos : (0 : ℝ) < S.length := by exact_mod_cast List.length_pos_iff.2 hne
      refine ⟨hne, hnu.1, rfl, rfl, rfl, by simp, ⟨?_, ?_⟩, ⟨_, rfl, ?_, by simp⟩, ⟨le_rfl, ?_⟩, Or.inl rfl⟩
      · intro p hp
        rw [List.eq_of_mem_replicate hp]; positivity
      · rw [List.sum_replicate, hn, nsmul_eq_mul]; field_simp
      · simp [LPModel.after, hn, LPModel.init]
      · simp [Spec.edges]
    · simp only [LPBoost.initSolver, if_neg hnu] at h
      simp at h

/-- One call of `boost`. -/
theorem lp_step {S : Examples X ℝ} {s₀ s : LPBoost ℝ H} {n : Nat} {qs : List (List ℝ)} (hi : LPInv S s₀ n qs s)
    {solver : Solver ℝ} (hsolver : solver.Correct) (wl : WeakLearner ℝ H) :
    ∃ out γ d w, LPBoost.boost solver S s wl (n + 1) = .ok out ∧ out.queries = [s.dist] ∧
      Spec.HardMarginPair S (s.hypotheses ++ [wl (n + 1) s.dist]) d w γ ∧
      out.state.hypotheses = s.hypotheses ++ [wl (n + 1) s.dist] ∧
      out.state.gammaHat = min (Spec.edge S s.dist (conf (wl (n + 1) s.dist))) s.gammaHat ∧
      (∃ m, out.state.lpModel = some m ∧ m.weights = w) ∧
      ((out.flow = .brk (n + 1) ∧ out.state.gammaHat - s₀.tolerance ≤ γ ∧ out.state.terminated = n + 1) ∨
       (out.flow = .cont ∧ γ < out.state.gammaHat - s₀.tolerance ∧ out.state.dist = d ∧
         LPInv S s₀ (n + 1) (qs ++ out.queries) out.state)) := by
  obtain ⟨m, hm, hma, hmn⟩ := hi.model
  set h := wl (n + 1) s.dist with hh
  have hma' := after_addColumn m h hma
  obtain ⟨hp1, hp2⟩ := after_program _ hma'
  have hopt := lpboost_solver_answers S hi.ne s₀.nu hi.nu1 (s.hypotheses ++ [h]) (by simp) solver hsolver
  set sol := solver (LPBoost.program S s₀.nu (s.hypotheses ++ [h])) with hsol
  obtain ⟨l1, l2, hpair⟩ := LP.optimal_pair S s₀.nu hi.nu1 _ sol hopt
  set m' : LPModel ℝ := { m.addColumn S h with weights := sol.x.drop (1 + S.length), dist := sol.z.take S.length } with hm'
  have hupd : m.update solver S h = .ok (m', -sol.objVal) := by
    unfold LPModel.update
    simp only [hp1, hp2, ← hsol]
    rw [if_neg (by omega), hm']
    simp only [hp2]
  have hedges : Spec.edges S conf (qs ++ [s.dist]) (s.hypotheses ++ [h]) =
      Spec.edges S conf qs s.hypotheses ++ [Spec.edge S s.dist (conf h)] :=
    edges_append S qs s.hypotheses (by rw [hi.qlen, hi.hlen]) s.dist h
  by_cases hstop : min (edge S s.dist h) s.gammaHat - s.tolerance ≤ -sol.objVal
  · refine ⟨_, -sol.objVal, _, _, by simp only [LPBoost.boost, hm, ← hh, hupd]; rw [if_pos hstop], rfl, hpair, rfl,
      by simp only [edge_eq_spec], ⟨_, rfl, rfl⟩, Or.inl ⟨rfl, ?_, ?_⟩⟩
    · simp only []; rw [← hi.tol]; exact hstop
    · simp [hi.hlen]
  · refine ⟨_, -sol.objVal, _, _, by simp only [LPBoost.boost, hm, ← hh, hupd]; rw [if_neg hstop], rfl, hpair, rfl,
      by simp only [edge_eq_spec], ⟨_, rfl, rfl⟩, Or.inr ⟨rfl, ?_, rfl, ?_⟩⟩
    · simp only []; rw [← hi.tol]; exact not_le.1 hstop
    · refine ⟨hi.ne, hi.nu1, hi.tol, by simp [hi.hlen], by simp [hi.qlen], hpair.dlen, hpair.dprob,
        ⟨m', rfl, ?_, ?_⟩, ?_, ?_⟩
      · exact hma'
      · intro _
        refine ⟨rfl, -sol.objVal, hpair, ?_⟩
        simp only []; rw [← hi.tol]; exact not_le.1 hstop
      · simp only [hedges]
        refine ⟨(min_le_right _ _).trans hi.hat_le.1, ?_⟩
        intro g hg
        rcases List.mem_append.1 hg with hg | hg
        · exact (min_le_right _ _).trans (hi.hat_le.2 g hg)
        · simp only [List.mem_singleton] at hg
          rw [hg, ← edge_eq_spec]; exact min_le_left _ _
      · simp only [hedges]
        rcases min_choice (edge S s.dist h) s.gammaHat with hc | hc
        · right; rw [hc, edge_eq_spec]; simp
        · rw [hc]
          rcases hi.hat_mem with h1 | h1
          · left; exact h1
          · right; exact List.mem_append_left _ h1

theorem lp_inv {S : Examples X ℝ} {s₀ : LPBoost ℝ H} (hn : s₀.nSample = S.length) {solver : Solver ℝ}
    (hsolver : solver.Correct) {wl : WeakLearner ℝ H} {n : Nat} {qs : List (List ℝ)} {s : LPBoost ℝ H}
    (hr : (LPBoost.booster solver S).Reachable wl s₀ n qs s) : LPInv S s₀ n qs s := by
  induction hr with
  | start h => exact lp_start hn h
  | @step n qs s₁ out hr hb hf ih =>
    obtain ⟨out', γ, d, w, h1, -, -, -, -, -, h2 | h2⟩ := lp_step ih hsolver wl
    · rw [show LPBoost.boost solver S s₁ wl (n + 1) = .ok out from hb, Except.ok.injEq] at h1
      subst h1; rw [h2.1] at hf; cases hf
    · rw [show LPBoost.boost solver S s₁ wl (n + 1) = .ok out from hb, Except.ok.injEq] at h1
      subst h1; exact h2.2.2.2

/-- C26: with a correct solver every vector handed to the weak learner is a probability vector over the
examples, and no call of `boost` panics. -/
theorem lpboost_queries (S : Examples X ℝ) (s₀ : LPBoost ℝ H) (hn : s₀.nSample = S.length) (solver : Solver ℝ)
    (hsolver : solver.Correct) (wl : WeakLearner ℝ H) (n : Nat) (qs : List (List ℝ)) (s : LPBoost ℝ H)
    (hr : (LPBoost.booster solver S).Reachable wl s₀ n qs s) :
    ∃ out d, (LPBoost.booster solver S).boost s wl (n + 1) = .ok out ∧ out.queries = [d] ∧ d.length = S.length ∧
      Spec.IsProb d := by
  have hi := lp_inv hn hsolver hr
  obtain ⟨out, γ, d, w, h1, h2, -⟩ := lp_step hi hsolver wl
  exact ⟨out, s.dist, h1, h2, hi.dlen, hi.dprob⟩

/-- C26: the upper estimate is the smallest edge seen so far (or 1, if all edges were above 1); hence it never
increases. -/
theorem lpboost_upper_estimate (S : Examples X ℝ) (s₀ : LPBoost ℝ H) (hn : s₀.nSample = S.length) (solver : Solver ℝ)
    (hsolver : solver.Correct) (wl : WeakLearner ℝ H) (n : Nat) (qs : List (List ℝ)) (s : LPBoost ℝ H)
    (hr : (LPBoost.booster solver S).Reachable wl s₀ n qs s) :
    (∀ g ∈ 1 :: Spec.edges S conf qs s.hypotheses, s.gammaHat ≤ g) ∧
      s.gammaHat ∈ 1 :: Spec.edges S conf qs s.hypotheses ∧
      ∀ out, (LPBoost.booster solver S).boost s wl (n + 1) = .ok out → out.state.gammaHat ≤ s.gammaHat := by
  have hi := lp_inv hn hsolver hr
  refine ⟨?_, ?_, ?_⟩
  · intro g hg
    rcases List.mem_cons.1 hg with rfl | hg
    · exact hi.hat_le.1
    · exact hi.hat_le.2 g hg
  · rcases hi.hat_mem with h | h
    · rw [h]; simp
    · exact List.mem_cons_of_mem _ h
  · intro out ho
    obtain ⟨out', γ, d, w, h1, -, -, -, h2, -⟩ := lp_step hi hsolver wl
    rw [show LPBoost.boost solver S s wl (n + 1) = .ok out from ho, Except.ok.injEq] at h1
    subst h1
    rw [h2]; exact min_le_right _ _

/-- C26, certificate at stopping: when `run` returns `f` after asking the weak learner with the distributions
`qs` and getting the hypotheses `hs`, then `f` is a convex combination of `hs`, and there is a value `γ` such that
`f` has margin at least `γ` on every example, some probability vector gives no hypothesis in `hs` an edge above
`γ` (so no convex combination of `hs` has a better minimum margin), and `γ` is within `tolerance` of the smallest
edge that the weak learner achieved (capped by 1). -/
theorem lpboost_certificate (S : Examples X ℝ) (s₀ : LPBoost ℝ H) (hn : s₀.nSample = S.length) (solver : Solver ℝ)
    (hsolver : solver.Correct) (wl : WeakLearner ℝ H) (fuel : Nat) (f : WeightedMajority ℝ H) (qs : List (List ℝ))
    (hrun : (LPBoost.booster solver S).run wl fuel s₀ = some (.ok (f, qs))) :
    ∃ hs : List H, ∃ γ : ℝ, ∃ d : List ℝ, hs.length = qs.length ∧
      (∀ i q h, qs[i]? = some q → hs[i]? = some h → h = wl (i + 1) q) ∧
      Spec.IsProb f.weights ∧ (∀ h ∈ f.hypotheses, h ∈ hs) ∧
      (∀ e ∈ S, γ ≤ e.2 * conf f e.1) ∧
      d.length = S.length ∧ Spec.IsProb d ∧ (∀ h ∈ hs, Spec.edge S d (conf h) ≤ γ) ∧
      ∃ g ∈ 1 :: Spec.edges S conf qs hs, (∀ g' ∈ 1 :: Spec.edges S conf qs hs, g ≤ g') ∧ g - s₀.tolerance ≤ γ := by
  obtain ⟨n, qs', s', out, k, h1, h2, h3, h4, h5, h6⟩ := (LPBoost.booster solver S).run_spec wl s₀ hrun
  have hi := lp_inv hn hsolver h1
  have hcalls : ∀ {n qs s} (_ : (LPBoost.booster solver S).Reachable wl s₀ n qs s),
      ∀ i q h, qs[i]? = some q → s.hypotheses[i]? = some h → h = wl (i + 1) q := by
    intro n qs s hr
    induction hr with
    | start _ => intro i q h hq; simp at hq
    | @step n qs s₁ out hr hb hf ih =>
      intro i q h hq hh
      have hi := lp_inv hn hsolver hr
      obtain ⟨out', γ, d, w, g1, g2, -, g3, -⟩ := lp_step hi hsolver wl
      rw [show LPBoost.boost solver S s₁ wl (n + 1) = .ok out from hb, Except.ok.injEq] at g1
      subst g1
      rw [g3] at hh
      rw [g2] at hq
      by_cases c : i < n
      · rw [List.getElem?_append_left (by rw [hi.qlen]; exact c)] at hq
        rw [List.getElem?_append_left (by rw [hi.hlen]; exact c)] at hh
        exact ih i q h hq hh
      · rw [List.getElem?_append_right (by rw [hi.qlen]; omega), hi.qlen] at hq
        rw [List.getElem?_append_right (by rw [hi.hlen]; omega), hi.hlen] at hh
        have : i - n = 0 := by
          by_contra hne
          rw [List.getElem?_eq_none (by simp; omega)] at hq; simp at hq
        rw [this] at hq hh
        simp at hq hh
        have hin : i = n := by omega
        subst hin; rw [← hh, ← hq]
  obtain ⟨out', γ, d, w, g1, g2, g3, g4, g5, ⟨m, g6, g7⟩, g8⟩ := lp_step hi hsolver wl
  rw [show LPBoost.boost solver S s' wl (n + 1) = .ok out from h3, Except.ok.injEq] at g1
  subst g1
  rcases g8 with ⟨g9, g10, -⟩ | ⟨g9, -⟩
  swap
  · rw [g9] at h4; cases h4
  have hq : qs = qs' ++ [s'.dist] := by rw [h5, g2]
  have hedges : Spec.edges S conf qs (s'.hypotheses ++ [wl (n + 1) s'.dist]) =
      Spec.edges S conf qs' s'.hypotheses ++ [Spec.edge S s'.dist (conf (wl (n + 1) s'.dist))] := by
    rw [hq]
    exact edges_append S qs' s'.hypotheses (by rw [hi.qlen, hi.hlen]) s'.dist _
  have hpost : WeightedMajority.fromSlices w (s'.hypotheses ++ [wl (n + 1) s'.dist]) = .ok f := by
    have := h6
    simp only [LPBoost.booster, LPBoost.postprocess, g6, g7, g4] at this
    exact this
  obtain ⟨f', hf1, hf2, hf3⟩ := fromSlices_prob (X := X) w _ g3.wlen g3.wprob
  rw [hpost, Except.ok.injEq] at hf1
  subst hf1
  refine ⟨s'.hypotheses ++ [wl (n + 1) s'.dist], γ, d, ?_, ?_, hf3, ?_, ?_, g3.dlen, g3.dprob, g3.edges, ?_⟩
  · rw [hq]; simp [hi.hlen, hi.qlen]
  · intro i q h hqi hhi
    rw [hq] at hqi
    by_cases c : i < n
    · rw [List.getElem?_append_left (by rw [hi.qlen]; exact c)] at hqi
      rw [List.getElem?_append_left (by rw [hi.hlen]; exact c)] at hhi
      exact hcalls h1 i q h hqi hhi
    · rw [List.getElem?_append_right (by rw [hi.qlen]; omega), hi.qlen] at hqi
      rw [List.getElem?_append_right (by rw [hi.hlen]; omega), hi.hlen] at hhi
      have : i - n = 0 := by
        by_contra hne
        rw [List.getElem?_eq_none (by simp; omega)] at hqi; simp at hqi
      rw [this] at hqi hhi
      simp at hqi hhi
      have hin : i = n := by omega
      subst hin; rw [← hhi, ← hqi]
  · intro h hh
    rcases fromSlices_cases w (s'.hypotheses ++ [wl (n + 1) s'.dist]) with ⟨h1, h2⟩ | ⟨h1, h2⟩
    · rw [hpost] at h2; cases h2
    · rw [hpost, Except.ok.injEq] at h2
      rw [h2] at hh
      simp only [List.mem_map] at hh
      obtain ⟨p, hp, rfl⟩ := hh
      exact (List.of_mem_zip (List.mem_of_mem_filter hp)).2
  · intro e he
    rw [hf2, weightedConf_eq_vote]
    exact g3.margins e he
  · refine ⟨out.state.gammaHat, ?_, ?_, g10⟩
    · rw [hedges, g5]
      rcases min_choice (Spec.edge S s'.dist (conf (wl (n + 1) s'.dist))) s'.gammaHat with hc | hc
      · rw [hc]; simp
      · rw [hc]
        rcases hi.hat_mem with h | h
        · rw [h]; simp
        · exact List.mem_cons_of_mem _ (List.mem_append_left _ h)
    · intro g hg
      rw [hedges] at hg
      rw [g5]
      rcases List.mem_cons.1 hg with rfl | hg
      · exact (min_le_right _ _).trans hi.hat_le.1
      · rcases List.mem_append.1 hg with hg | hg
        · exact (min_le_right _ _).trans (hi.hat_le.2 g hg)
        · simp only [List.mem_singleton] at hg
          rw [hg]; exact min_le_left _ _

/-- C26: if the weak learner always finds edge `ρ ≤ 1` on the distributions it is given, the final hypothesis has
margin at least `ρ - tolerance` on every training example. -/
theorem lpboost_margin (S : Examples X ℝ) (s₀ : LPBoost ℝ H) (hn : s₀.nSample = S.length) (solver : Solver ℝ)
    (hsolver : solver.Correct) (wl : WeakLearner ℝ H) (ρ : ℝ) (hρ : ρ ≤ 1)
    (hwl : ∀ k d, d.length = S.length → Spec.IsProb d → ρ ≤ Spec.edge S d (conf (wl k d)))
    (fuel : Nat) (f : WeightedMajority ℝ H) (qs : List (List ℝ))
    (hrun : (LPBoost.booster solver S).run wl fuel s₀ = some (.ok (f, qs))) :
    Spec.IsProb f.weights ∧ ∀ e ∈ S, ρ - s₀.tolerance ≤ e.2 * conf f e.1 := by
  obtain ⟨n, qs', s', out, k, h1, h2, h3, h4, h5, h6⟩ := (LPBoost.booster solver S).run_spec wl s₀ hrun
  have hqs : ∀ {n qs s} (_ : (LPBoost.booster solver S).Reachable wl s₀ n qs s),
      ∀ q ∈ qs, q.length = S.length ∧ Spec.IsProb q := by
    intro n qs s hr
    induction hr with
    | start _ => simp
    | @step n qs s₁ out hr hb hf ih =>
      intro q hq
      rcases List.mem_append.1 hq with hq | hq
      · exact ih q hq
      · obtain ⟨out', d, g1, g2, g3, g4⟩ := lpboost_queries S s₀ hn solver hsolver wl n qs s₁ hr
        rw [hb, Except.ok.injEq] at g1; subst g1
        rw [g2] at hq; simp at hq; subst hq; exact ⟨g3, g4⟩
  have hall : ∀ q ∈ qs, q.length = S.length ∧ Spec.IsProb q := by
    rw [h5]
    intro q hq
    rcases List.mem_append.1 hq with hq | hq
    · exact hqs h1 q hq
    · obtain ⟨out', d, g1, g2, g3, g4⟩ := lpboost_queries S s₀ hn solver hsolver wl n qs' s' h1
      rw [h3, Except.ok.injEq] at g1; subst g1
      rw [g2] at hq; simp at hq; subst hq; exact ⟨g3, g4⟩
  obtain ⟨hs, γ, d, c1, c2, c3, c4, c5, c6, c7, c8, g, c9, c10, c11⟩ :=
    lpboost_certificate S s₀ hn solver hsolver wl fuel f qs hrun
  refine ⟨c3, fun e he => ?_⟩
  have hg : ρ ≤ g := by
    rcases List.mem_cons.1 c9 with rfl | hg
    · exact hρ
    · unfold Spec.edges at hg
      obtain ⟨i, hi, rfl⟩ := List.getElem_of_mem hg
      simp only [List.length_zipWith] at hi
      rw [List.getElem_zipWith]
      have hq := hall qs[i] (List.getElem_mem (by omega))
      rw [c2 i qs[i] hs[i] (by simp) (by simp)]
      exact hwl _ _ hq.1 hq.2
  have := c5 e he
  linarith

/-- C26: LPBoost finds the best hard margin up to `tolerance`: if the weak learner always returns a hypothesis of
the class `C` with the largest edge, then no convex combination of hypotheses of `C` has a minimum margin that
beats that of the final hypothesis by more than `tolerance`. (Confidences are at most 1 in absolute value, labels
are `±1`.) -/
theorem lpboost_near_optimal (S : Examples X ℝ) (s₀ : LPBoost ℝ H) (hn : s₀.nSample = S.length) (hS : Spec.PmLabels S)
    (solver : Solver ℝ) (hsolver : solver.Correct) (wl : WeakLearner ℝ H) (C : Set H)
    (hC : ∀ h ∈ C, ∀ e ∈ S, |conf h e.1| ≤ (1 : ℝ))
    (hwl : ∀ k d, d.length = S.length → Spec.IsProb d → ∀ h ∈ C, Spec.edge S d (conf h) ≤ Spec.edge S d (conf (wl k d)))
    (fuel : Nat) (f : WeightedMajority ℝ H) (qs : List (List ℝ))
    (hrun : (LPBoost.booster solver S).run wl fuel s₀ = some (.ok (f, qs)))
    (v : List (ℝ × H)) (hv : ∀ p ∈ v, 0 ≤ p.1 ∧ p.2 ∈ C) (hv1 : (v.map Prod.fst).sum = 1)
    (ρ : ℝ) (hρ : ∀ e ∈ S, ρ ≤ e.2 * Spec.vote conf v e.1) :
    ∀ e ∈ S, ρ - s₀.tolerance ≤ e.2 * conf f e.1 := by
  intro e he
  refine (lpboost_margin S s₀ hn solver hsolver wl ρ ?_ ?_ fuel f qs hrun).2 e he
  · -- margins are at most one
    refine (hρ e he).trans ?_
    have h1 : e.2 * Spec.vote conf v e.1 = (v.map fun p => p.1 * (e.2 * conf p.2 e.1)).sum := by
      unfold Spec.vote
      rw [← sum_map_mul_left']
      congr 1; apply List.map_congr_left; intro p _; ring
    rw [h1]
    apply LP.weighted_le v (fun p hp => (hv p hp).1) hv1 (fun h => e.2 * conf h e.1)
    intro p hp
    have h2 := hC _ (hv p hp).2 e he
    rcases hS e he with h | h
    · rw [h, one_mul]; exact (abs_le.1 h2).2
    · rw [h]; have := (abs_le.1 h2).1; linarith
  · intro k d hl hd
    have h1 := LP.le_edge_of_margins S d hl hd (Spec.vote conf v) ρ hρ
    refine h1.trans ?_
    have h2 := LP.pair_edge S (v.map Prod.snd) d (v.map Prod.fst) (by simp)
    rw [zip_map_fst_snd] at h2
    rw [show Spec.edge S d (Spec.vote conf v) = _ from h2]
    exact LP.weighted_le v (fun p hp => (hv p hp).1) hv1 (fun h => Spec.edge S d (conf h)) _
      (fun p hp => hwl k d hl hd _ (hv p hp).2)

/-- C26: the lower estimate never decreases, and LPBoost terminates: when the weak learner only ever returns
hypotheses from a finite list, `run` is over after at most one call more than the list is long (`tolerance ≥ 0`). -/
theorem lpboost_terminates (S : Examples X ℝ) (s₀ : LPBoost ℝ H) (hn : s₀.nSample = S.length) (htol : 0 ≤ s₀.tolerance)
    (solver : Solver ℝ) (hsolver : solver.Correct) (wl : WeakLearner ℝ H) (C : List H) (hC : ∀ k d, wl k d ∈ C) :
    ∃ r, (LPBoost.booster solver S).run wl (C.length + 1) s₀ = some r ∧
      ∀ f qs, r = .ok (f, qs) → qs.length ≤ C.length + 1 := by
  -- a hypothesis that is already stored makes the algorithm stop
  have hnodup : ∀ {n qs s} (_ : (LPBoost.booster solver S).Reachable wl s₀ n qs s),
      s.hypotheses.Nodup ∧ ∀ h ∈ s.hypotheses, h ∈ C := by
    intro n qs s hr
    induction hr with
    | start h =>
      have hi := lp_start hn h
      rw [List.length_eq_zero_iff.1 hi.hlen]; simp
    | @step n qs s₁ out hr hb hf ih =>
      have hi := lp_inv hn hsolver hr
      obtain ⟨out', γ, d, w, g1, g2, g3, g4, g5, -, g6 | g6⟩ := lp_step hi hsolver wl
      · rw [show LPBoost.boost solver S s₁ wl (n + 1) = .ok out from hb, Except.ok.injEq] at g1
        subst g1; rw [g6.1] at hf; cases hf
      · rw [show LPBoost.boost solver S s₁ wl (n + 1) = .ok out from hb, Except.ok.injEq] at g1
        subst g1
        rw [g4]
        constructor
        · rw [List.nodup_append]
          refine ⟨ih.1, List.nodup_singleton _, ?_⟩
          rintro a ha b hb rfl
          simp only [List.mem_singleton] at hb
          -- `a` was stored before
          have hpos : 1 ≤ n := by
            rw [← hi.hlen]; exact List.length_pos_iff.2 (List.ne_nil_of_mem ha)
          obtain ⟨m, hm, -, hmn⟩ := hi.model
          obtain ⟨-, γ₁, hp, hlt⟩ := hmn hpos
          have e1 : Spec.edge S s₁.dist (conf (wl (n + 1) s₁.dist)) ≤ γ₁ := by rw [← hb]; exact hp.edges a ha
          -- monotonicity of the lower estimate
          have e2 : γ₁ ≤ γ := by
            have a1 := LP.le_edge_of_margins S d g3.dlen g3.dprob (Spec.vote conf (List.zip m.weights s₁.hypotheses)) γ₁
              hp.margins
            have a2 := LP.vote_edge_le S s₁.hypotheses d m.weights hp.wlen hp.wprob γ
              (fun h hh => g3.edges h (List.mem_append_left _ hh))
            exact a1.trans a2
          have e3 := g6.2.1
          rw [g5] at e3
          have e4 := min_le_left (Spec.edge S s₁.dist (conf (wl (n + 1) s₁.dist))) s₁.gammaHat
          linarith
        · intro h hh
          rcases List.mem_append.1 hh with hh | hh
          · exact ih.2 h hh
          · simp only [List.mem_singleton] at hh
            rw [hh]; exact hC _ _
  obtain ⟨r, hr⟩ := (LPBoost.booster solver S).run_terminates wl s₀ C.length (by
    intro qs s out hr hb hf
    have h1 := hnodup (Booster.Reachable.step hr hb hf)
    have h2 := (lp_inv hn hsolver (Booster.Reachable.step hr hb hf)).hlen
    have h3 := (h1.1.subperm h1.2).length_le
    omega)
  refine ⟨r, hr, ?_⟩
  rintro f qs rfl
  obtain ⟨n, qs', s', out, k, h1, h2, h3, h4, h5, h6⟩ := (LPBoost.booster solver S).run_spec wl s₀ hr
  obtain ⟨out', d, g1, g2, -⟩ := lpboost_queries S s₀ hn solver hsolver wl n qs' s' h1
  rw [h3, Except.ok.injEq] at g1; subst g1
  rw [h5, g2]
  have := (lp_inv hn hsolver h1).qlen
  simp; omega

/-- C26: with a valid binary sample, `ν` in range, a correct solver and a weak learner that answers from a finite
list, `run` returns a hypothesis. -/
theorem lpboost_returns (S : Examples X ℝ) (s₀ : LPBoost ℝ H) (hn : s₀.nSample = S.length) (htol : 0 ≤ s₀.tolerance)
    (hbin : checkBinary S = .ok ()) (hnu : 1 ≤ s₀.nu) (hnu' : s₀.nu ≤ S.length)
    (solver : Solver ℝ) (hsolver : solver.Correct) (wl : WeakLearner ℝ H) (C : List H) (hC : ∀ k d, wl k d ∈ C) :
    ∃ f qs, (LPBoost.booster solver S).run wl (C.length + 1) s₀ = some (.ok (f, qs)) := by
  obtain ⟨r, hr, -⟩ := lpboost_terminates S s₀ hn htol solver hsolver wl C hC
  have hpre : ∃ s, LPBoost.preprocess S s₀ = .ok s := by
    unfold LPBoost.preprocess LPBoost.initSolver
    rw [hbin]; simp [hnu, hnu']
  obtain ⟨s1, hs1⟩ := hpre
  unfold Booster.run at hr ⊢
  rw [show (LPBoost.booster solver S).preprocess s₀ wl = .ok s1 from hs1] at hr ⊢
  simp only at hr ⊢
  cases hl : (LPBoost.booster solver S).loop wl (C.length + 1) s1 1 with
  | none => rw [hl] at hr; simp at hr
  | some r' =>
    rcases (LPBoost.booster solver S).loop_spec wl s₀ (Booster.Reachable.start (B := LPBoost.booster solver S)
      (wl := wl) (s := s₀) hs1) hl with ⟨n', qs', s', h1, h2, e, h3, h4⟩ | ⟨n', qs', s', out, k, h1, h2, h3, h4, qs, h5, h6⟩
    · obtain ⟨out, d, g1, -⟩ := lpboost_queries S s₀ hn solver hsolver wl n' qs' s' h1
      rw [g1] at h3; cases h3
    · rw [h6]
      simp only
      have hi := lp_inv hn hsolver h1
      obtain ⟨out', γ, d, w, g1, g2, g3, g4, g5, ⟨m, g6, g7⟩, -⟩ := lp_step hi hsolver wl
      rw [show LPBoost.boost solver S s' wl (n' + 1) = .ok out from h3, Except.ok.injEq] at g1
      subst g1
      obtain ⟨f, hf, -⟩ := fromSlices_prob (X := X) w _ g3.wlen g3.wprob
      refine ⟨f, qs, ?_⟩
      have : (LPBoost.booster solver S).postprocess out.state = .ok f := by
        simp only [LPBoost.booster, LPBoost.postprocess, g6, g7, g4]; exact hf
      rw [this]

/-- C52: the outcome of `run` depends only on the parameters `ν` and `tolerance`, not on what earlier runs left
behind (any solver, any weak learner). -/
theorem lpboost_history_independent (S : Examples X ℝ) (s t : LPBoost ℝ H) (solver : Solver ℝ) (wl : WeakLearner ℝ H)
    (fuel : Nat) (hnu : s.nu = t.nu) (htol : s.tolerance = t.tolerance) (hn : s.nSample = t.nSample) :
    (LPBoost.booster solver S).run wl fuel s = (LPBoost.booster solver S).run wl fuel t := by
  refine (LPBoost.booster solver S).run_congr wl
    (fun a b => a.dist = b.dist ∧ a.gammaHat = b.gammaHat ∧ a.tolerance = b.tolerance ∧ a.lpModel = b.lpModel ∧
      a.hypotheses = b.hypotheses) ?_ ?_ s t ?_ fuel
  · rintro ⟨a1, a2, a3, a4, a5, a6, a7, a8, a9⟩ ⟨b1, b2, b3, b4, b5, b6, b7, b8, b9⟩ it ⟨h1, h2, h3, h4, h5⟩
    simp only at h1 h2 h3 h4 h5
    subst h1 h2 h3 h4 h5
    simp only [LPBoost.booster, LPBoost.boost]
    cases a6 with
    | none => left; exact ⟨_, rfl, rfl⟩
    | some m =>
      cases hu : m.update solver S (wl it a1) with
      | error e => left; exact ⟨e, by simp [hu], by simp [hu]⟩
      | ok p =>
        obtain ⟨m', g⟩ := p
        right
        simp only [hu]
        by_cases hc : min (edge S a1 (wl it a1)) a2 - a3 ≤ g
        · simp only [if_pos hc]; exact ⟨_, _, rfl, rfl, rfl, rfl, rfl, rfl, rfl, rfl, rfl⟩
        · simp only [if_neg hc]; exact ⟨_, _, rfl, rfl, rfl, rfl, rfl, rfl, rfl, rfl, rfl⟩
  · rintro a b ⟨-, -, -, h4, h5⟩
    simp only [LPBoost.booster, LPBoost.postprocess, h4, h5]
  · simp only [LPBoost.booster, LPBoost.preprocess, LPBoost.initSolver, hnu, hn]
    cases checkBinary S with
    | error e => left; exact ⟨e, rfl, rfl⟩
    | ok _ =>
      by_cases hc : 1 ≤ t.nu ∧ t.nu ≤ (S.length : ℝ)
      · simp only [if_pos hc]; right; exact ⟨_, _, rfl, rfl, rfl, rfl, htol, rfl, rfl⟩
      · simp only [if_neg hc]; left; exact ⟨_, rfl, rfl⟩

/-! ## Cases that meet the hypotheses; the capping parameter is ignored -/

section nonvacuity

/-- There is a correct solver. -/
theorem exists_correct_solver : ∃ solver : Solver ℝ, solver.Correct := by
  classical
  refine ⟨fun p => if h : ∃ s, p.Optimal s then h.choose else ⟨[], [], 0, .other⟩, ?_⟩
  intro p s hs
  have h : ∃ s, p.Optimal s := ⟨s, hs⟩
  simp only [dif_pos h]
  exact h.choose_spec

/-- The constant hypothesis `+1`. -/
def exOne : Fn Nat ℝ := ⟨fun _ => 1⟩

/-- LPBoost on the two-example sample with `ν = 2`. -/
noncomputable def exLP : LPBoost ℝ (Fn Nat ℝ) := { LPBoost.init exSample with nu := 2 }

theorem exLP_setNu : (LPBoost.init exSample : LPBoost ℝ (Fn Nat ℝ)).setNu 2 = .ok exLP := by
  simp [LPBoost.setNu, checkNu, LPBoost.init, exSample, exLP]

/-- C25 is false as stated: on two examples with `ν = 2`, where the only distribution capped at `1/ν` is the
uniform one, LPBoost with any correct solver hands the weak learner the distribution `(0, 1)` in its second
round. -/
theorem lpboost_cap_not_respected (solver : Solver ℝ) (hsolver : solver.Correct) :
    ∃ qs s out, (LPBoost.booster solver exSample).Reachable (fun _ _ => exOne) exLP 1 qs s ∧
      (LPBoost.booster solver exSample).boost s (fun _ _ => exOne) 2 = .ok out ∧ out.queries = [[0, 1]] ∧
      ¬ Spec.IsCapped exLP.nu ([0, 1] : List ℝ) := by
  have hn : exLP.nSample = exSample.length := rfl
  obtain ⟨s1, hs1⟩ : ∃ s, LPBoost.preprocess exSample exLP = .ok s := by
    unfold LPBoost.preprocess LPBoost.initSolver
    rw [exSample_valid]
    have : (1 : ℝ) ≤ exLP.nu ∧ exLP.nu ≤ (exSample.length : ℝ) := by simp [exLP, exSample]
    rw [if_pos this]; exact ⟨_, rfl⟩
  have hr0 : (LPBoost.booster solver exSample).Reachable (fun _ _ => exOne) exLP 0 [] s1 :=
    Booster.Reachable.start hs1
  have hi := lp_start hn hs1
  have hd : s1.dist = [1 / 2, 1 / 2] := by
    have := hs1
    unfold LPBoost.preprocess LPBoost.initSolver at this
    rw [exSample_valid] at this
    have hc : (1 : ℝ) ≤ exLP.nu ∧ exLP.nu ≤ (exSample.length : ℝ) := by simp [exLP, exSample]
    rw [if_pos hc] at this
    simp only [Except.ok.injEq] at this
    rw [← this]
    simp [exLP, LPBoost.init, exSample, List.replicate]
  obtain ⟨out, γ, d, w, h1, h2, h3, h4, h5, -, h6⟩ := lp_step hi hsolver (fun _ _ => exOne)
  have hhyp : s1.hypotheses = [] := List.length_eq_zero_iff.1 hi.hlen
  have hedge : Spec.edge exSample s1.dist (conf exOne) = 0 := by
    rw [hd]; simp [Spec.edge, exSample, exOne, conf]
  rw [hhyp] at h3
  have hdl := h3.dlen
  obtain ⟨a, b, rfl⟩ : ∃ a b, d = [a, b] := by
    match d, hdl with
    | [a, b], _ => exact ⟨a, b, rfl⟩
  have e1 := h3.edges exOne (by simp)
  have e2 := h3.dprob.2
  have e3 := h3.dprob.1 a (by simp)
  have hw1 : w = [1] := by
    have hl := h3.wlen
    have hs := h3.wprob.2
    match w, hl with
    | [v], _ => simpa using hs
  have e4 := h3.margins (1, -1) (by simp [exSample])
  subst hw1
  simp [Spec.vote, exOne, conf] at e4
  simp [Spec.edge, exSample, exOne, conf] at e1
  simp at e2
  have ha : a = 0 := by linarith
  have hb : b = 1 := by linarith
  have hγ : γ < out.state.gammaHat - exLP.tolerance := by
    have hhat : s1.gammaHat = 1 := by
      rcases hi.hat_mem with h | h
      · exact h
      · simp [Spec.edges] at h
    rw [h5, hedge, hhat]
    simp [exLP, LPBoost.init, exSample]
    linarith
  rcases h6 with h6 | h6
  · exact absurd h6.2.1 (not_le.2 hγ)
  · have hr1 := Booster.Reachable.step hr0 (show (LPBoost.booster solver exSample).boost s1 (fun _ _ => exOne) (0 + 1) = .ok out from h1) h6.1
    obtain ⟨out2, γ2, d2, w2, g1, g2, -⟩ := lp_step h6.2.2.2 hsolver (fun _ _ => exOne)
    refine ⟨_, out.state, out2, hr1, g1, ?_, ?_⟩
    · rw [g2, h6.2.2.1, ha, hb]
    · intro hc
      have := (hc.1 1 (by simp)).2
      simp [exLP] at this
      norm_num at this

/-- The hypotheses of the run theorems are met: a correct solver, the two-example sample and a weak learner that
always returns the same hypothesis of margin 1/2; LPBoost returns a hypothesis of margin at least 0 on both. -/
example : ∃ solver : Solver ℝ, solver.Correct ∧ ∃ f qs,
    (LPBoost.booster solver exSample).run exLearner 2 (LPBoost.init exSample) = some (.ok (f, qs)) ∧
    ∀ e ∈ exSample, (0 : ℝ) ≤ e.2 * conf f e.1 := by
  obtain ⟨solver, hsolver⟩ := exists_correct_solver
  refine ⟨solver, hsolver, ?_⟩
  obtain ⟨f, qs, h⟩ := lpboost_returns exSample (LPBoost.init exSample) rfl (by simp [LPBoost.init]) exSample_valid
    (by simp [LPBoost.init]) (by simp [LPBoost.init, exSample]) solver hsolver exLearner [exLearner 0 []]
    (fun k d => by simp [exLearner])
  refine ⟨f, qs, h, ?_⟩
  intro e he
  have h1 := (lpboost_margin exSample (LPBoost.init exSample) rfl solver hsolver exLearner (1 / 2) (by norm_num) ?_ _ f qs h).2 e he
  · simp [LPBoost.init, exSample] at h1 ⊢
    linarith
  · intro k d hl hd
    match d, hl with
    | [a, b], _ =>
      have := hd.2
      simp at this
      simp [Spec.edge, exSample, exLearner, conf]
      linarith

end nonvacuity

end Miniboosts.Props
