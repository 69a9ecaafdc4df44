import Verif.Lemmas.MLPBoost
import Verif.Props.CERLPBoost
import Verif.Props.LPBoost

/-! # Properties of MLPBoost (C34, C52, C68, C69) -/

namespace Miniboosts.Props

open Real MLPBoost

variable {H X : Type*} [Classifier H X ℝ] [BEq H]

/-- The number of rounds after which MLPBoost stops at the latest: `⌈8 ln(m/ν) / (tolerance/2)²⌉`. -/
noncomputable def mlpLimit (S : Examples X ℝ) (s₀ : MLPBoost H) : Nat :=
  ⌈8 * log ((S.length : ℝ) / s₀.nu) / s₀.halfTolerance ^ 2⌉₊

/-- The regularisation parameter `ln(m/ν) / (tolerance/2)`. -/
noncomputable def mlpEta (S : Examples X ℝ) (s₀ : MLPBoost H) : ℝ :=
  log ((S.length : ℝ) / s₀.nu) / s₀.halfTolerance

/-- What the theorems assume of the parameters and of equality of hypotheses: the strategy is the default
(short step) or the classic one, the tolerance is positive, `ν` is in `[1, m]`, and hypotheses that compare
equal agree on the sample. -/
structure MlpOk (S : Examples X ℝ) (s₀ : MLPBoost H) : Prop where
  strategy : s₀.primary.fwType = .classic ∨ s₀.primary.fwType = .shortStep
  tol : 0 < s₀.halfTolerance
  one_le_nu : 1 ≤ s₀.nu
  nu_le : s₀.nu ≤ S.length
  beq : ∀ f h : H, (f == h) = true → ∀ e ∈ S, conf f e.1 = (conf h e.1 : ℝ)

section
variable {S : Examples X ℝ} {s₀ : MLPBoost H} {solver : Solver ℝ} {noise : Nat → Nat → ℝ} {wl : WeakLearner ℝ H}

theorem mlp_inv (ok : MlpOk S s₀) (hsolver : solver.Correct) {n : Nat} {qs : List (List ℝ)} {s : MLPBoost H}
    (hr : (MLPBoost.booster solver noise S).Reachable wl s₀ n qs s) :
    Inv S s₀ wl n qs s ∧ (∀ h ∈ s.hypotheses, ∃ k d, h = wl k d) ∧ ∀ d ∈ qs, d.length = S.length ∧
      Spec.IsCapped s₀.nu d ∧ Spec.IsPosProb d := by
  induction hr with
  | start h =>
    have hi := inv_start (wl := wl) h
    exact ⟨hi, by rw [hi.zero rfl]; simp, by simp⟩
  | @step n qs s₁ out hr hb hf ih =>
    obtain ⟨hi, hm, hqs⟩ := ih
    have hq : ∀ d, IsExpDist s₁.eta s₀.nu S (weightedConf s₁.weights s₁.hypotheses) d → ∀ q ∈ qs ++ [d],
        q.length = S.length ∧ Spec.IsCapped s₀.nu q ∧ Spec.IsPosProb q := by
      intro d hd q hq
      rcases List.mem_append.1 hq with h | h
      · exact hqs q h
      · simp at h; subst h
        obtain ⟨h1, h2, h3, -, -⟩ := hd.capped
        exact ⟨h1, h2, h3⟩
    rcases boost_cases hi hsolver noise ok.strategy ok.tol ok.one_le_nu ok.nu_le ok.beq with
      ⟨_, h⟩ | ⟨d, -, -, hd, ⟨_, s', h, hi', -, hh, -⟩ | ⟨_, _, s', h, -⟩ | ⟨_, _, s', h, hi', -, hm', -⟩⟩
    · rw [show boost solver noise S s₁ wl (n + 1) = .ok out from hb, Except.ok.injEq] at h; subst h; simp at hf
    · rw [show boost solver noise S s₁ wl (n + 1) = .ok out from hb, Except.ok.injEq] at h; subst h
      refine ⟨hi', ?_, hq d hd⟩
      intro k hk
      simp only [hh, List.mem_singleton] at hk
      exact ⟨_, _, hk⟩
    · rw [show boost solver noise S s₁ wl (n + 1) = .ok out from hb, Except.ok.injEq] at h; subst h; simp at hf
    · rw [show boost solver noise S s₁ wl (n + 1) = .ok out from hb, Except.ok.injEq] at h; subst h
      refine ⟨hi', ?_, hq d hd⟩
      intro k hk
      rcases hm' k hk with h1 | h1
      · exact hm k h1
      · exact ⟨_, _, h1⟩

end

/-- C34: after `n` rounds there is one weight per stored hypothesis, no hypothesis is stored twice, nothing is stored
before the first round, and after every later one the weights are a probability vector -- for every perturbation and
every correct solver. -/
theorem mlp_weights_simplex (S : Examples X ℝ) (s₀ : MLPBoost H) (ok : MlpOk S s₀) (solver : Solver ℝ)
    (hsolver : solver.Correct) (noise : Nat → Nat → ℝ) (wl : WeakLearner ℝ H) (n : Nat) (qs : List (List ℝ))
    (s : MLPBoost H) (hr : (MLPBoost.booster solver noise S).Reachable wl s₀ n qs s) :
    s.weights.length = s.hypotheses.length ∧ (s.hypotheses.Pairwise fun f h => (f == h) = false) ∧
      (n = 0 → s.hypotheses = []) ∧ (1 ≤ n → Spec.IsProb s.weights) := by
  obtain ⟨hi, -, -⟩ := mlp_inv ok hsolver hr
  exact ⟨hi.len, hi.nodup, hi.zero, hi.prob⟩

/-- C69: one call of `boost` from a reachable state never panics; it asks the weak learner exactly once, with a
distribution capped at `1/ν` without zero entries, unless the iteration limit has been reached.  The first round always
continues; a later one stops exactly when the limit has been reached or the smallest edge so far (at most 1) exceeds
the smoothed soft margin of the current vote by at most half of the tolerance. -/
theorem mlp_round (S : Examples X ℝ) (s₀ : MLPBoost H) (ok : MlpOk S s₀) (solver : Solver ℝ)
    (hsolver : solver.Correct) (noise : Nat → Nat → ℝ) (wl : WeakLearner ℝ H) (n : Nat) (qs : List (List ℝ))
    (s : MLPBoost H) (hr : (MLPBoost.booster solver noise S).Reachable wl s₀ n qs s) :
    ∃ out, (MLPBoost.booster solver noise S).boost s wl (n + 1) = .ok out ∧
      ((n = mlpLimit S s₀ ∧ out.queries = [] ∧ out.flow = .brk n) ∨
       (n < mlpLimit S s₀ ∧ ∃ d, out.queries = [d] ∧ d.length = S.length ∧ Spec.IsCapped s₀.nu d ∧
        Spec.IsPosProb d ∧ (n = 0 → out.flow = .cont) ∧
        (1 ≤ n → ∃ v, Spec.IsSmoothedMargin S s₀.nu (mlpEta S s₀) (Spec.vote conf (List.zip s.weights s.hypotheses)) v ∧
          (out.flow = .cont ↔ s₀.halfTolerance <
            ((qs ++ [d]).mapIdx fun k q => Spec.edge S q (conf (wl (k + 1) q))).foldl min 1 - v)))) := by
  obtain ⟨hi, -, -⟩ := mlp_inv ok hsolver hr
  have hv : Spec.vote conf (List.zip s.weights s.hypotheses) = weightedConf (X := X) s.weights s.hypotheses := by
    funext x; rw [weightedConf_eq_vote]
  have hlim : s.maxIter = mlpLimit S s₀ := hi.maxIter
  have heta : mlpEta S s₀ = s.eta := hi.eta.symm
  rw [hv, heta]
  rcases boost_cases hi hsolver noise ok.strategy ok.tol ok.one_le_nu ok.nu_le ok.beq with
      ⟨h0, h⟩ | ⟨d, h0, hpos, hd, ⟨hn, s', h, -⟩ | ⟨hn, hg, s', h, -⟩ | ⟨hn, hg, s', h, -⟩⟩
  · exact ⟨_, h, Or.inl ⟨by rw [← hlim, h0], rfl, rfl⟩⟩
  all_goals
    obtain ⟨h1, h2, h3, -, -⟩ := hd.capped
    refine ⟨_, h, Or.inr ⟨by omega, d, rfl, h1, h2, h3, ?_, ?_⟩⟩
  · intro _; rfl
  · intro _; omega
  · intro _; omega
  · intro _
    refine ⟨_, isSmoothedMargin_pot hd hpos, ?_⟩
    simp only [reduceCtorEq, false_iff, not_lt]
    exact hg
  · intro _; rfl
  · intro _
    refine ⟨_, isSmoothedMargin_pot hd hpos, ?_⟩
    simp only [true_iff]
    exact hg

/-- C69: `run` finishes after at most `⌈8 ln(m/ν)/(tolerance/2)²⌉` calls of the weak learner, each of which receives a
distribution capped at `1/ν`. -/
theorem mlp_terminates (S : Examples X ℝ) (s₀ : MLPBoost H) (ok : MlpOk S s₀) (solver : Solver ℝ)
    (hsolver : solver.Correct) (noise : Nat → Nat → ℝ) (wl : WeakLearner ℝ H) :
    ∃ r, (MLPBoost.booster solver noise S).run wl (mlpLimit S s₀ + 1) s₀ = some r ∧
      ∀ f qs, r = .ok (f, qs) → qs.length ≤ mlpLimit S s₀ ∧
        ∀ d ∈ qs, d.length = S.length ∧ Spec.IsCapped s₀.nu d ∧ Spec.IsPosProb d := by
  obtain ⟨r, hr⟩ := (MLPBoost.booster solver noise S).run_terminates wl s₀ (mlpLimit S s₀) (by
    intro qs s out hr hb
    obtain ⟨out', ho, h1⟩ := mlp_round S s₀ ok solver hsolver noise wl _ _ _ hr
    rw [ho, Except.ok.injEq] at hb; subst hb
    rcases h1 with ⟨-, -, h2⟩ | ⟨h2, -⟩
    · rw [h2]; simp
    · omega)
  refine ⟨r, hr, ?_⟩
  rintro f qs rfl
  obtain ⟨n, qs', s', out, k, h1, h2, h3, h4, h5, h6⟩ := (MLPBoost.booster solver noise S).run_spec wl s₀ hr
  obtain ⟨out', ho, h7⟩ := mlp_round S s₀ ok solver hsolver noise wl _ _ _ h1
  rw [ho, Except.ok.injEq] at h3; subst h3
  obtain ⟨hi, -, hqs⟩ := mlp_inv ok hsolver h1
  have hl := hi.qlen
  rcases h7 with ⟨h8, h9, -⟩ | ⟨h8, d, h9, h10, h11, h12, -⟩
  · rw [h5, h9, List.append_nil]
    exact ⟨by omega, hqs⟩
  · rw [h5, h9]
    refine ⟨by simp; omega, ?_⟩
    intro d' hd'
    rcases List.mem_append.1 hd' with h | h
    · exact hqs d' h
    · simp at h; subst h; exact ⟨h10, h11, h12⟩

/-- The convergence invariant: after `n ≥ 1` rounds the potential of the current vote is within `8 η² / (n+2)` of
`η ρ`. -/
theorem mlp_gap {S : Examples X ℝ} {s₀ : MLPBoost H} (ok : MlpOk S s₀) {solver : Solver ℝ} (hsolver : solver.Correct)
    {noise : Nat → Nat → ℝ} (hS : Spec.PmLabels S)
    {wl : WeakLearner ℝ H} (hconf : ∀ k d, ∀ e ∈ S, |conf (wl k d) e.1| ≤ (1 : ℝ)) {ρ : ℝ}
    (hwl : ∀ k d, d.length = S.length → Spec.IsCapped s₀.nu d → ρ ≤ Spec.edge S d (conf (wl k d)))
    {n : Nat} {qs : List (List ℝ)} {s : MLPBoost H}
    (hr : (MLPBoost.booster solver noise S).Reachable wl s₀ n qs s) (hn : 1 ≤ n) (e : List ℝ)
    (he : IsExpDist s.eta s₀.nu S (weightedConf s.weights s.hypotheses) e) :
    s.eta * ρ - pot s.eta S (weightedConf s.weights s.hypotheses) e ≤ 8 * s.eta ^ 2 / ((n : ℝ) + 2) := by
  have hlab : ∀ p ∈ S, |p.2| = 1 := by
    intro p hp; rcases hS p hp with h | h <;> rw [h] <;> simp
  induction hr generalizing e with
  | start _ => omega
  | @step n qs s₁ out hr hb hf ih =>
    obtain ⟨hi, hm, hqs⟩ := mlp_inv ok hsolver hr
    rcases boost_cases hi hsolver noise ok.strategy ok.tol ok.one_le_nu ok.nu_le ok.beq with
      ⟨_, h⟩ | ⟨d, -, hpos, hd, ⟨hn0, s', h, hi', heta, hh, hw⟩ | ⟨_, _, s', h, -⟩ |
        ⟨hn1, hg, s', h, hi', heta, hm', prim, hprim, σ, c, h0, h1, hF, hc, hqual⟩⟩
    · rw [show boost solver noise S s₁ wl (n + 1) = .ok out from hb, Except.ok.injEq] at h; subst h; simp at hf
    · rw [show boost solver noise S s₁ wl (n + 1) = .ok out from hb, Except.ok.injEq] at h; subst h
      simp only [] at he ⊢
      rw [heta] at he ⊢
      obtain ⟨hdl, hdc, hdp, -, -⟩ := hd.capped
      subst hn0
      have hz : ∀ x : X, weightedConf s₁.weights s₁.hypotheses x = (0 : ℝ) := by
        intro x; rw [hi.zero rfl]; simp [weightedConf]
      refine fw_gap (σ := 1) (c := 2) (g := conf (wl 1 d)) (n := 0) hpos.le hd he zero_le_one ?_ ?_ ?_
        (hwl 1 d hdl hdc) (by omega)
      · intro p _
        rw [hh, hw]
        simp [weightedConf]
      · intro p hp
        rw [hz, mul_zero, sub_zero, abs_mul, hlab p hp, one_mul]
        linarith [hconf 1 d p hp]
      · norm_num
        linarith
    · rw [show boost solver noise S s₁ wl (n + 1) = .ok out from hb, Except.ok.injEq] at h; subst h; simp at hf
    · rw [show boost solver noise S s₁ wl (n + 1) = .ok out from hb, Except.ok.injEq] at h; subst h
      simp only [] at he ⊢
      rw [heta] at he ⊢
      obtain ⟨hdl, hdc, hdp, -, -⟩ := hd.capped
      have hFb : ∀ p ∈ S, |weightedConf s₁.weights s₁.hypotheses p.1| ≤ (1 : ℝ) := by
        intro p hp
        obtain ⟨a, b⟩ := hi.prob hn1
        exact weightedConf_abs_le _ _ _ a b.le (fun k hk => by
          obtain ⟨j, d', rfl⟩ := hm k hk; exact hconf j d' p hp)
      have h2 : ∀ p ∈ S, |p.2 * conf (wl (n + 1) d) p.1 - p.2 * weightedConf s₁.weights s₁.hypotheses p.1| ≤
          (2 : ℝ) := by
        intro p hp
        rw [← mul_sub, abs_mul, hlab p hp, one_mul]
        have := hconf (n + 1) d p hp
        have := hFb p hp
        refine (abs_sub _ _).trans ?_
        linarith
      obtain ⟨e1, he1⟩ := exists_expDist s₁.eta s₀.nu S (weightedConf prim s'.hypotheses) ok.one_le_nu ok.nu_le
      have hstep := fw_gap (n := n) hpos.le hd he1 h0 hF hc (hqual h2) (hwl (n + 1) d hdl hdc) (fun h => ih h d hd)
      have := hprim e e1 he he1
      linarith

/-- C69, the optimality guarantee: if on every distribution capped at `1/ν` the weak learner returns a hypothesis of
edge at least `ρ`, then the combined hypothesis returned by `run` has edge at least `ρ - tolerance` under *every*
distribution capped at `1/ν` -- whatever the perturbed linear programs return. -/
theorem mlp_soft_margin (S : Examples X ℝ) (s₀ : MLPBoost H) (ok : MlpOk S s₀) (solver : Solver ℝ)
    (hsolver : solver.Correct) (noise : Nat → Nat → ℝ) (hS : Spec.PmLabels S)
    (wl : WeakLearner ℝ H) (hconf : ∀ k d, ∀ e ∈ S, |conf (wl k d) e.1| ≤ (1 : ℝ)) (ρ : ℝ)
    (hwl : ∀ k d, d.length = S.length → Spec.IsCapped s₀.nu d → ρ ≤ Spec.edge S d (conf (wl k d)))
    (fuel : Nat) (f : WeightedMajority ℝ H) (qs : List (List ℝ))
    (hrun : (MLPBoost.booster solver noise S).run wl fuel s₀ = some (.ok (f, qs))) :
    Spec.SoftMarginGe S s₀.nu (conf f) (ρ - 2 * s₀.halfTolerance) ∧ Spec.IsProb f.weights := by
  obtain ⟨n, qs', s, out, k, hr, -, hb, hf, -, hpost⟩ := (MLPBoost.booster solver noise S).run_spec wl s₀ hrun
  obtain ⟨hi, -, hqs⟩ := mlp_inv ok hsolver hr
  set ε := s₀.halfTolerance with hε
  have hεpos : 0 < ε := ok.tol
  obtain ⟨e, he⟩ := exists_expDist s.eta s₀.nu S (weightedConf s.weights s.hypotheses) ok.one_le_nu ok.nu_le
  have hcases := boost_cases hi hsolver noise ok.strategy ok.tol ok.one_le_nu ok.nu_le ok.beq
  have hsame : out.state.weights = s.weights ∧ out.state.hypotheses = s.hypotheses := by
    rcases hcases with
      ⟨_, h⟩ | ⟨d, -, -, hd, ⟨_, s', h, -⟩ | ⟨_, _, s', h, h2⟩ | ⟨_, _, s', h, -⟩⟩
    · rw [show boost solver noise S s wl (n + 1) = .ok out from hb, Except.ok.injEq] at h; subst h; simp
    · rw [show boost solver noise S s wl (n + 1) = .ok out from hb, Except.ok.injEq] at h; subst h; simp at hf
    · rw [show boost solver noise S s wl (n + 1) = .ok out from hb, Except.ok.injEq] at h; subst h; exact h2
    · rw [show boost solver noise S s wl (n + 1) = .ok out from hb, Except.ok.injEq] at h; subst h; simp at hf
  have hpost' : WeightedMajority.fromSlices s.weights s.hypotheses = .ok f := by
    have : WeightedMajority.fromSlices out.state.weights out.state.hypotheses = .ok f := hpost
    rwa [hsame.1, hsame.2] at this
  have hn : 1 ≤ n := by
    by_contra h0
    have h1 := hi.len
    rw [hi.zero (by omega)] at h1 hpost'
    rw [List.length_eq_zero_iff.1 h1] at hpost'
    rcases fromSlices_cases (K := ℝ) [] ([] : List H) with ⟨_, h2⟩ | ⟨h1, _⟩
    · rw [h2] at hpost'; simp at hpost'
    · simp at h1
  obtain ⟨f', hf', hfc, hfp⟩ := fromSlices_prob (X := X) s.weights s.hypotheses hi.len (hi.prob hn)
  rw [hf', Except.ok.injEq] at hpost'
  subst hpost'
  refine ⟨?_, hfp⟩
  intro d hdl hd
  rw [specEdge_congr d (fun p _ => hfc p.1)]
  have hpl := pot_le_edge he hdl hd
  set F := weightedConf (X := X) s.weights s.hypotheses
  set L := log ((S.length : ℝ) / s₀.nu) with hL
  have hηL : s.eta * ε = L := by rw [hi.eta]; exact div_mul_cancel₀ _ hεpos.ne'
  have hmaxpos : 0 < s.maxIter := by have := hi.le; omega
  have hLpos : 0 < L := by
    by_contra h0
    have : s.maxIter = 0 := by
      rw [hi.maxIter, Nat.ceil_eq_zero]
      apply div_nonpos_of_nonpos_of_nonneg
      · rw [← hL]; linarith
      · positivity
    omega
  have hηpos : 0 < s.eta := by
    by_contra h0
    have := mul_nonpos_of_nonpos_of_nonneg (not_lt.1 h0) hεpos.le
    linarith
  -- `ρ` is at most one
  have hρ1 : ρ ≤ 1 := by
    have h1 := hwl 1 d hdl hd
    have h2 : Spec.edge S d (conf (wl 1 d)) ≤ 1 := by
      unfold Spec.edge
      have h3 : ((List.zip S d).map fun p => p.2 * (p.1.2 * conf (wl 1 d) p.1.1)).sum ≤ ((List.zip S d).map fun p => p.2).sum := by
        apply List.sum_le_sum
        intro p hp
        obtain ⟨hp1, hp2⟩ := List.of_mem_zip hp
        have h4 := (hd.1 _ hp2).1
        have h5 : p.1.2 * conf (wl 1 d) p.1.1 ≤ 1 := by
          have h6 := abs_le.1 (hconf 1 d p.1 hp1)
          rcases hS p.1 hp1 with h | h <;> rw [h] <;> linarith
        nlinarith
      rw [show (fun p : (X × ℝ) × ℝ => p.2) = Prod.snd from rfl, List.map_snd_zip (by omega), hd.2] at h3
      exact h3
    linarith
  have hpot : s.eta * (ρ - ε) ≤ pot s.eta S F e := by
    rcases hcases with
      ⟨h0, h⟩ | ⟨d', -, -, hd', ⟨_, s', h, -⟩ | ⟨_, hg, s', h, -⟩ | ⟨_, _, s', h, -⟩⟩
    · have hgap := mlp_gap ok hsolver hS hconf hwl hr hn e he
      have hnn : 8 * L / ε ^ 2 ≤ (n : ℝ) := by
        rw [← h0, hi.maxIter]; exact Nat.le_ceil _
      have h1 : 8 * s.eta ^ 2 / ((n : ℝ) + 2) ≤ s.eta * ε := by
        rw [div_le_iff₀ (by positivity)]
        rw [div_le_iff₀ (by positivity)] at hnn
        rw [← hηL] at hnn
        have h2 : 8 * s.eta ≤ n * ε := by
          have : ε * (8 * s.eta) ≤ ε * (n * ε) := by linarith
          exact le_of_mul_le_mul_left this hεpos
        nlinarith
      linarith
    · rw [show boost solver noise S s wl (n + 1) = .ok out from hb, Except.ok.injEq] at h; subst h; simp at hf
    · have hu : d' = e := by
        have h1 : projectCapped _ _ = .ok d' := hd'
        have h2 : projectCapped _ _ = .ok e := he
        rw [h1, Except.ok.injEq] at h2; exact h2
      subst hu
      obtain ⟨h1, h2, -⟩ := hd'.capped
      have h3 : ρ ≤ bestEdge S wl (qs' ++ [d']) := by
        apply bestEdge_ge hρ1
        intro j q hq
        rcases List.mem_append.1 hq with h | h
        · obtain ⟨a, b, -⟩ := hqs q h
          exact hwl j q a b
        · simp at h; subst h; exact hwl j q h1 h2
      have h4 : ρ - ε ≤ pot s.eta S F d' / s.eta := by linarith
      rw [le_div_iff₀ hηpos] at h4
      linarith
    · rw [show boost solver noise S s wl (n + 1) = .ok out from hb, Except.ok.injEq] at h; subst h; simp at hf
  have : s.eta * (ρ - 2 * ε) ≤ s.eta * Spec.edge S d F := by
    have : s.eta * (ρ - 2 * ε) = s.eta * (ρ - ε) - L := by rw [← hηL]; ring
    linarith
  exact le_of_mul_le_mul_left this hηpos

/-- C69: with valid labels and `1 ≤ ν < m`, `run` returns a hypothesis (it does not panic), whatever the weak learner
does. -/
theorem mlp_returns (S : Examples X ℝ) (s₀ : MLPBoost H) (ok : MlpOk S s₀) (solver : Solver ℝ)
    (hsolver : solver.Correct) (noise : Nat → Nat → ℝ)
    (hvalid : checkBinary S = .ok ()) (hnu : s₀.nu < S.length) (wl : WeakLearner ℝ H) :
    ∃ f qs, (MLPBoost.booster solver noise S).run wl (mlpLimit S s₀ + 1) s₀ = some (.ok (f, qs)) := by
  have hpos : 0 < mlpLimit S s₀ := by
    unfold mlpLimit
    rw [Nat.ceil_pos]
    apply div_pos _ (by have := ok.tol; positivity)
    have : 0 < log ((S.length : ℝ) / s₀.nu) := by
      apply log_pos
      rw [lt_div_iff₀ (by linarith [ok.one_le_nu]), one_mul]; exact hnu
    linarith
  obtain ⟨r, hr, -⟩ := mlp_terminates S s₀ ok solver hsolver noise wl
  have hpre : ∃ s, (MLPBoost.booster solver noise S).preprocess s₀ wl = .ok s := by
    show ∃ s, preprocess S s₀ = .ok s
    unfold preprocess
    rw [hvalid]
    simp only []
    rw [if_neg ok.tol.ne']
    exact ⟨_, rfl⟩
  obtain ⟨s, hs⟩ := hpre
  have hr' := hr
  unfold Booster.run at hr
  rw [hs] at hr
  simp only [] at hr
  cases hl : (MLPBoost.booster solver noise S).loop wl (mlpLimit S s₀ + 1) s 1 with
  | none => rw [hl] at hr; simp at hr
  | some x =>
    rw [hl] at hr
    have hstart : (MLPBoost.booster solver noise S).Reachable wl s₀ 0 [] s := .start hs
    rcases (MLPBoost.booster solver noise S).loop_spec wl s₀ hstart hl with
      ⟨n, qs, s', h1, -, e, h2, h3⟩ | ⟨n, qs, s', out, k, h1, h2, h3, h4, qs', h5, h6⟩
    · obtain ⟨out, ho, -⟩ := mlp_round S s₀ ok solver hsolver noise wl _ _ _ h1
      rw [ho] at h2; simp at h2
    · subst h6
      simp only [] at hr
      obtain ⟨hi, -, -⟩ := mlp_inv ok hsolver h1
      have hn : 1 ≤ n := by
        by_contra h0
        have h0 : n = 0 := by omega
        subst h0
        obtain ⟨out', ho, h7⟩ := mlp_round S s₀ ok solver hsolver noise wl _ _ _ h1
        rw [ho, Except.ok.injEq] at h3; subst h3
        rcases h7 with ⟨h8, -⟩ | ⟨-, d, -, -, -, -, h11, -⟩
        · omega
        · rw [h4] at h11; simp at h11
      have hsame : out.state.weights = s'.weights ∧ out.state.hypotheses = s'.hypotheses := by
        rcases boost_cases hi hsolver noise ok.strategy ok.tol ok.one_le_nu ok.nu_le ok.beq with
          ⟨_, h⟩ | ⟨d, -, -, hd, ⟨_, s', h, -⟩ | ⟨_, _, s', h, h2⟩ | ⟨_, _, s', h, -⟩⟩
        · rw [show boost solver noise S s' wl (n + 1) = .ok out from h3, Except.ok.injEq] at h; subst h; simp
        · rw [show boost solver noise S _ wl (n + 1) = .ok out from h3, Except.ok.injEq] at h; subst h; simp at h4
        · rw [show boost solver noise S _ wl (n + 1) = .ok out from h3, Except.ok.injEq] at h; subst h; exact h2
        · rw [show boost solver noise S _ wl (n + 1) = .ok out from h3, Except.ok.injEq] at h; subst h; simp at h4
      obtain ⟨f, hf, -, -⟩ := fromSlices_prob (X := X) s'.weights s'.hypotheses hi.len (hi.prob hn)
      have hpost : (MLPBoost.booster solver noise S).postprocess out.state = .ok f := by
        show WeightedMajority.fromSlices out.state.weights out.state.hypotheses = .ok f
        rw [hsame.1, hsame.2, hf]
      rw [hpost] at hr
      simp only [Option.some.injEq] at hr
      exact ⟨f, _, by rw [hr', ← hr]⟩

/-- C69, a disagreement with the documentation: with `ν = m` (allowed by the setter) the iteration limit is 0, nothing
is ever learned and `run` panics -- for any solver. -/
theorem mlp_nu_eq_m_panics (S : Examples X ℝ) (s₀ : MLPBoost H) (solver : Solver ℝ) (noise : Nat → Nat → ℝ)
    (hnu : s₀.nu = S.length) (wl : WeakLearner ℝ H) (fuel : Nat) (f : WeightedMajority ℝ H)
    (qs : List (List ℝ)) : (MLPBoost.booster solver noise S).run wl fuel s₀ ≠ some (.ok (f, qs)) := by
  intro hrun
  obtain ⟨n, qs', s, out, k, hr, -, hb, hf, -, hpost⟩ := (MLPBoost.booster solver noise S).run_spec wl s₀ hrun
  have key : n = 0 ∧ s.maxIter = 0 ∧ s.weights = [] := by
    clear hb hf hpost hrun
    induction hr with
    | start h =>
      have hi := inv_start (wl := wl) h
      have hne := checkBinary_ne_nil hi.valid
      have hpos : (0 : ℝ) < S.length := by exact_mod_cast List.length_pos_iff.2 hne
      refine ⟨rfl, ?_, ?_⟩
      · rw [hi.maxIter, hnu, div_self hpos.ne']; simp
      · have := hi.len; rw [hi.zero rfl] at this; simpa using this
    | @step n qs s₁ out hr hb hf ih =>
      obtain ⟨h1, h2, h3⟩ := ih
      have h : boost solver noise S s₁ wl (n + 1) = .ok { state := s₁, flow := .brk s₁.maxIter, queries := [] } := by
        unfold boost
        rw [if_pos (by omega)]
      rw [show boost solver noise S s₁ wl (n + 1) = .ok out from hb, Except.ok.injEq] at h
      subst h; simp at hf
  obtain ⟨h1, h2, h3⟩ := key
  have h : boost solver noise S s wl (n + 1) = .ok { state := s, flow := .brk s.maxIter, queries := [] } := by
    unfold boost
    rw [if_pos (by omega)]
  rw [show boost solver noise S s wl (n + 1) = .ok out from hb, Except.ok.injEq] at h
  subst h
  have hpost' : WeightedMajority.fromSlices s.weights s.hypotheses = .ok f := hpost
  rw [h3] at hpost'
  rcases fromSlices_cases (K := ℝ) [] s.hypotheses with ⟨_, h2⟩ | ⟨h1, _⟩
  · rw [h2] at hpost'; simp at hpost'
  · simp at h1

/-- C52 for MLPBoost: a second run on the same object gives what a fresh object with the same parameters gives --
nothing of the earlier history is left. -/
theorem mlp_history_independent (S : Examples X ℝ) (s t : MLPBoost H) (solver : Solver ℝ) (noise : Nat → Nat → ℝ)
    (wl : WeakLearner ℝ H) (hnu : s.nu = t.nu) (htol : s.halfTolerance = t.halfTolerance)
    (hfwnu : s.primary.nu = t.primary.nu) (hfwt : s.primary.fwType = t.primary.fwType) (fuel : Nat) :
    (MLPBoost.booster solver noise S).run wl fuel s = (MLPBoost.booster solver noise S).run wl fuel t := by
  have hpre : preprocess S s = preprocess S t := by
    unfold preprocess
    cases checkBinary S with
    | error e => rfl
    | ok u => simp [initParams, maxLoop, hnu, htol, hfwnu, hfwt]
  have : (MLPBoost.booster solver noise S).preprocess s wl = (MLPBoost.booster solver noise S).preprocess t wl := hpre
  unfold Booster.run
  rw [this]

/-- What holds after `n` rounds for any solver, any strategy and any weak learner. -/
structure MlpWeak (S : Examples X ℝ) (s₀ : MLPBoost H) (n : Nat) (s : MLPBoost H) : Prop where
  zero : n = 0 → s.hypotheses = []
  nu : s.nu = s₀.nu
  eta : s.eta = mlpEta S s₀
  fwEta : s.primary.eta = s.eta
  fwType : s.primary.fwType = s₀.primary.fwType
  nodup : s.hypotheses.Pairwise fun f h => (f == h) = false
  sec : ∃ m, s.secondary = some m ∧ MLP.Holds m S s.hypotheses s₀.nu s.eta

omit [BEq H] in
theorem mlp_update_some {m m' : MLP.LPModel} {S : Examples X ℝ} {hs : List H} {nu eta : ℝ}
    (hm : MLP.Holds m S hs nu eta) {solver : Solver ℝ} {noise : Nat → Nat → ℝ} {h : H} {w : List ℝ}
    (hu : m.update solver noise S (some h) = .ok (m', w)) :
    MLP.Holds m' S (hs ++ [h]) nu eta ∧ m'.weights = w ∧ m'.draws = m.draws + 1 ∧
      ∃ p, IsGamma p S (hs ++ [h]) (1 / nu) (1 / nu) (fun i => noise m.draws i / eta) (fun _ => 0) ∧
        w = (solver p).z.drop (2 * S.length + 1) := by
  set m₁ : MLP.LPModel := { m with nHypotheses := m.nHypotheses + 1, rows := pushMargins m.rows (margins S h) } with hm₁
  have hm1 : MLP.Holds m₁ S (hs ++ [h]) nu eta :=
    ⟨hm.nEx, by simp [hm₁, hm.nHyp], by simp only [hm₁, hm.rows]; exact pushMargins_rowsOf S hs h, hm.cap, hm.eta⟩
  unfold MLP.LPModel.update at hu
  simp only [] at hu
  rw [← hm₁] at hu
  split at hu
  · simp at hu
  · simp only [Except.ok.injEq, Prod.mk.injEq] at hu
    obtain ⟨rfl, rfl⟩ := hu
    exact ⟨⟨hm1.nEx, hm1.nHyp, hm1.rows, hm1.cap, hm1.eta⟩, rfl, rfl, _, hm1.isGamma noise, by rw [hm1.nEx]⟩

/-- One continuing round, unfolded. -/
theorem mlp_cont {S : Examples X ℝ} {s₀ s : MLPBoost H} {solver : Solver ℝ} {noise : Nat → Nat → ℝ}
    {wl : WeakLearner ℝ H} {n : Nat} {out : BoostOut (MLPBoost H) ℝ} (hi : MlpWeak S s₀ n s)
    (hb : boost solver noise S s wl (n + 1) = .ok out) (hf : out.flow = .cont) :
    MlpWeak S s₀ (n + 1) out.state ∧ ∃ d m m', out.queries = [d] ∧ s.secondary = some m ∧ out.state.secondary = some m' ∧
      expDistribution s.eta s.nu S s.weights s.hypotheses = .ok d ∧
      ((n = 0 ∧ out.state.hypotheses = s.hypotheses ++ [wl (n + 1) d] ∧ out.state.weights = s.weights ++ [1]) ∨
       (1 ≤ n ∧ ∃ pos ws prim seco,
          s.primary.nextIterate (n + 1) S d out.state.hypotheses pos ws = .ok prim ∧
          ((out.state.hypotheses = s.hypotheses ++ [wl (n + 1) d] ∧ pos = s.hypotheses.length ∧ ws = s.weights ++ [0] ∧
              m.update solver noise S (some (wl (n + 1) d)) = .ok (m', seco)) ∨
           (out.state.hypotheses = s.hypotheses ∧ (∃ f, s.hypotheses[pos]? = some f ∧ (f == wl (n + 1) d) = true) ∧
              ws = s.weights ∧ m' = m ∧ seco = m.weights)) ∧
          betterWeight S s.eta s.nu out.state.hypotheses prim seco = .ok out.state.weights)) := by
  obtain ⟨m, hsec, hm⟩ := hi.sec
  unfold boost at hb
  split at hb
  · simp only [Except.ok.injEq] at hb; subst hb; simp at hf
  split at hb
  · simp at hb
  rename_i d hd
  simp only [hsec] at hb
  split at hb
  · rename_i h1
    split at hb
    · simp at hb
    · rename_i m' w hu
      simp only [Except.ok.injEq] at hb
      subst hb
      have h0 : n = 0 := by omega
      refine ⟨⟨by omega, hi.nu, hi.eta, hi.fwEta, hi.fwType, ?_, m', rfl, (mlp_update_some hm hu).1⟩,
        d, m, m', rfl, hsec, rfl, hd, Or.inl ⟨h0, rfl, rfl⟩⟩
      simp only [hi.zero h0]
      simp
  · rename_i h1
    have hn : 1 ≤ n := by omega
    split at hb
    · simp at hb
    split at hb
    · simp only [Except.ok.injEq] at hb; subst hb; simp at hf
    set h := wl (n + 1) d with hh
    by_cases hp : s.hypotheses.findIdx (fun f => f == h) = s.hypotheses.length
    · simp only [hp, decide_true, if_true] at hb
      split at hb
      · simp at hb
      rename_i prim hprim
      split at hb
      · simp at hb
      rename_i m' seco hu
      split at hb
      · simp at hb
      rename_i w hw
      split at hb
      · simp at hb
      simp only [Except.ok.injEq] at hb
      subst hb
      refine ⟨⟨by omega, hi.nu, hi.eta, hi.fwEta, hi.fwType, ?_, m', rfl, (mlp_update_some hm hu).1⟩,
        d, m, m', rfl, hsec, rfl, hd, Or.inr ⟨hn, _, _, prim, seco, hprim, Or.inl ⟨rfl, rfl, rfl, hu⟩, hw⟩⟩
      simp only []
      rw [List.pairwise_append]
      refine ⟨hi.nodup, by simp, ?_⟩
      intro a ha b hb
      simp at hb; subst hb
      have := List.findIdx_eq_length.1 hp a ha
      simpa using this
    · have hlt : s.hypotheses.findIdx (fun f => f == h) < s.hypotheses.length := by
        rcases lt_or_eq_of_le (List.findIdx_le_length (p := fun f => f == h) (xs := s.hypotheses)) with h1 | h1
        · exact h1
        · exact absurd h1 hp
      simp only [hp, decide_false, Bool.false_eq_true, if_false] at hb
      split at hb
      · simp at hb
      rename_i prim hprim
      simp only [MLP.LPModel.update] at hb
      split at hb
      · simp at hb
      rename_i w hw
      split at hb
      · simp at hb
      simp only [Except.ok.injEq] at hb
      subst hb
      refine ⟨⟨by omega, hi.nu, hi.eta, hi.fwEta, hi.fwType, hi.nodup, m, rfl, hm⟩,
        d, m, m, rfl, hsec, rfl, hd, Or.inr ⟨hn, _, _, prim, m.weights, hprim, Or.inr ⟨rfl, ?_, rfl, rfl, rfl⟩, hw⟩⟩
      exact ⟨s.hypotheses[s.hypotheses.findIdx (fun f => f == h)], by simp [hlt], List.findIdx_getElem (w := hlt)⟩

theorem mlp_weak {S : Examples X ℝ} {s₀ s : MLPBoost H} {solver : Solver ℝ} {noise : Nat → Nat → ℝ}
    {wl : WeakLearner ℝ H} {n : Nat} {qs : List (List ℝ)}
    (hr : (MLPBoost.booster solver noise S).Reachable wl s₀ n qs s) : MlpWeak S s₀ n s := by
  induction hr with
  | start h =>
    have hi := inv_start (wl := wl) h
    obtain ⟨m, h1, h2, -⟩ := hi.sec
    exact ⟨hi.zero, hi.nu, hi.eta, hi.fwEta, hi.fwType, hi.nodup, m, h1, h2⟩
  | step hr hb hf ih => exact (mlp_cont ih hb hf).1

omit [BEq H] in
/-- The program of the secondary update, as it is: the cap is `d_i ≤ 1`. -/
theorem mlp_program {p : Program ℝ} {S : Examples X ℝ} {hs : List H} {nu : ℝ} (hnu : 0 < nu) {b : Nat → ℝ}
    (hg : IsGamma p S hs (1 / nu) (1 / nu) b (fun _ => 0)) : Spec.PerturbedProgram S hs 1 b p := by
  refine ⟨⟨?_, ?_, ?_, ?_, ?_⟩, hg.nCols, fun γ d => ⟨?_, fun hl => ?_⟩⟩
  · rw [hg.A]; exact gamma_wellFormed S hs _
  · rw [hg.qlen, hg.nCols]
  · rw [hg.pcols, hg.nCols]
  · rw [hg.rhs, hg.nRows]; simp [rhsOf]; omega
  · rw [hg.cones, hg.nRows]; simp [senseOf, Program.isEq]; omega
  · have hiff : ∀ q : ℝ, 1 / nu * q ≤ 1 / nu ↔ q ≤ 1 / 1 := by
      intro q
      rw [div_one, mul_le_iff_le_one_right (by positivity)]
    rw [hg.feasible_iff]
    constructor
    · rintro ⟨h1, h2, h3, h4⟩
      exact ⟨h1, ⟨fun p hp => ⟨h2.1 p hp, (hiff p).1 (h3 p hp)⟩, h2.2⟩, h4⟩
    · rintro ⟨h1, h2, h4⟩
      exact ⟨h1, ⟨fun p hp => (h2.1 p hp).1, h2.2⟩, fun p hp => (hiff p).2 (h2.1 p hp).2, h4⟩
  · rw [hg.objective_eq γ d hl]
    congr 1
    unfold quadPen
    rw [← hl]
    clear hl
    simp only [zero_mul, zero_div, add_zero]
    induction d using List.reverseRecOn with
    | nil => simp
    | append_singleton d x ih =>
      rw [List.length_append, List.length_singleton, Finset.sum_range_succ, List.mapIdx_concat, List.sum_append, ← ih]
      simp only [List.sum_singleton]
      congr 1
      · apply Finset.sum_congr rfl
        intro i hi
        rw [List.getD_append _ _ _ _ (Finset.mem_range.1 hi)]
      · simp [List.getD_eq_getElem?_getD]

/-- C34: from the second round on, for *any* solver, perturbation, Frank-Wolfe strategy and weak learner, a round that
continues registers the new hypothesis unless it is already there, computes two candidates -- one by Frank-Wolfe,
one from the dual part of the solver's answer to the perturbed program (or, when nothing was registered, the one
stored in the model from the last such answer) -- and adopts one of them; the adopted one has a smoothed soft margin
at least as large as both candidates. -/
theorem mlp_adopts_better (S : Examples X ℝ) (s₀ : MLPBoost H) (htol : 0 < s₀.halfTolerance) (hnu1 : 1 ≤ s₀.nu)
    (hnu : s₀.nu < S.length) (solver : Solver ℝ) (noise : Nat → Nat → ℝ) (wl : WeakLearner ℝ H) (n : Nat) (hn : 1 ≤ n)
    (qs : List (List ℝ)) (s : MLPBoost H) (hr : (MLPBoost.booster solver noise S).Reachable wl s₀ n qs s)
    (out : BoostOut (MLPBoost H) ℝ) (hb : (MLPBoost.booster solver noise S).boost s wl (n + 1) = .ok out)
    (hf : out.flow = .cont) :
    ∃ d pos ws prim seco, out.queries = [d] ∧
      ((∃ h, wl (n + 1) d = h ∧ (∀ f ∈ s.hypotheses, (f == h) = false) ∧ out.state.hypotheses = s.hypotheses ++ [h] ∧
          out.state.hypotheses[pos]? = some h ∧ ws = s.weights ++ [0] ∧
          ∃ p j, Spec.PerturbedProgram S out.state.hypotheses 1 (fun i => noise j i / mlpEta S s₀) p ∧
            seco = (solver p).z.drop (2 * S.length + 1)) ∨
       (out.state.hypotheses = s.hypotheses ∧ ws = s.weights ∧
          (∃ f, s.hypotheses[pos]? = some f ∧ (f == wl (n + 1) d) = true) ∧
          ∃ m, s.secondary = some m ∧ seco = m.weights)) ∧
      s.primary.nextIterate (n + 1) S d out.state.hypotheses pos ws = .ok prim ∧
      (out.state.weights = prim ∨ out.state.weights = seco) ∧
      ∀ v v', (Spec.IsSmoothedMargin S s₀.nu (mlpEta S s₀) (Spec.vote conf (List.zip prim out.state.hypotheses)) v ∨
          Spec.IsSmoothedMargin S s₀.nu (mlpEta S s₀) (Spec.vote conf (List.zip seco out.state.hypotheses)) v) →
        Spec.IsSmoothedMargin S s₀.nu (mlpEta S s₀)
          (Spec.vote conf (List.zip out.state.weights out.state.hypotheses)) v' → v ≤ v' := by
  have hi := mlp_weak hr
  have heta : 0 < mlpEta S s₀ := by
    unfold mlpEta
    apply div_pos _ htol
    apply log_pos
    rw [lt_div_iff₀ (by linarith), one_mul]; exact hnu
  obtain ⟨hi', d, m, m', hq, hsec, hsec', hd, h0 | ⟨-, pos, ws, prim, seco, hprim, hreg, hbw⟩⟩ := mlp_cont hi hb hf
  · omega
  have hv : ∀ w : List ℝ, Spec.vote conf (List.zip w out.state.hypotheses) =
      weightedConf (X := X) w out.state.hypotheses := by
    intro w; funext x; rw [weightedConf_eq_vote]
  obtain ⟨w, b1, b2, b3⟩ := betterWeight_ok (by rw [hi.eta]; exact heta : 0 < s.eta) hnu1 hnu.le out.state.hypotheses prim seco
  rw [hi.nu, b1, Except.ok.injEq] at hbw
  refine ⟨d, pos, ws, prim, seco, hq, ?_, hprim, by rw [← hbw]; exact b2, ?_⟩
  · rcases hreg with ⟨h1, h2, h3, h4⟩ | ⟨h1, h2, h3, h4, h5⟩
    · left
      obtain ⟨m₀, hm₀, hH⟩ := hi.sec
      rw [hsec, Option.some.injEq] at hm₀
      subst hm₀
      obtain ⟨-, -, -, p, hp, hz⟩ := mlp_update_some hH h4
      refine ⟨_, rfl, ?_, h1, by rw [h1, h2]; simp, h3, p, m.draws, ?_, hz⟩
      · have := hi'.nodup
        rw [h1, List.pairwise_append] at this
        intro f hf
        exact this.2.2 f hf _ (by simp)
      · rw [h1, ← hi.eta]
        exact mlp_program (by linarith) hp
    · right
      exact ⟨h1, h3, h2, m, hsec, h5⟩
  · intro v v' hv1 hv2
    rw [hv, hv] at hv1
    rw [hv, ← hbw] at hv2
    have heta' := hi.eta
    rw [← heta'] at hv1 hv2
    have hpos : 0 < s.eta := by rw [heta']; exact heta
    obtain ⟨e, he⟩ := exists_expDist s.eta s₀.nu S (weightedConf w out.state.hypotheses) hnu1 hnu.le
    obtain ⟨e1, he1⟩ := exists_expDist s.eta s₀.nu S (weightedConf prim out.state.hypotheses) hnu1 hnu.le
    obtain ⟨e2, he2⟩ := exists_expDist s.eta s₀.nu S (weightedConf seco out.state.hypotheses) hnu1 hnu.le
    obtain ⟨c1, c2⟩ := b3 e e1 e2 he he1 he2
    rw [hv2.unique (isSmoothedMargin_pot he hpos)]
    rcases hv1 with h | h
    · rw [h.unique (isSmoothedMargin_pot he1 hpos)]
      exact div_le_div_of_nonneg_right c1 hpos.le
    · rw [h.unique (isSmoothedMargin_pot he2 hpos)]
      exact div_le_div_of_nonneg_right c2 hpos.le

/-- C34: no hypothesis is stored twice, for any solver and strategy. -/
theorem mlp_no_duplicates (S : Examples X ℝ) (s₀ : MLPBoost H) (solver : Solver ℝ) (noise : Nat → Nat → ℝ)
    (wl : WeakLearner ℝ H) (n : Nat) (qs : List (List ℝ)) (s : MLPBoost H)
    (hr : (MLPBoost.booster solver noise S).Reachable wl s₀ n qs s) :
    s.hypotheses.Pairwise fun f h => (f == h) = false := (mlp_weak hr).nodup

omit [BEq H] in
/-- C68, a disagreement with the paper and the documentation: for every `ν > 1` the perturbed program is *not* the one
over the distributions capped at `1/ν`; it allows all the weight on one example. -/
theorem mlp_cap_not_respected (S : Examples X ℝ) (hS : S ≠ []) (hs : List H) (nu : ℝ) (hnu : 1 < nu) (b : Nat → ℝ)
    (p : Program ℝ) (hp : Spec.PerturbedProgram S hs 1 b p) : ¬ Spec.PerturbedProgram S hs nu b p := by
  intro hq
  match S, hS with
  | e :: S, _ =>
    set d : List ℝ := 1 :: List.replicate S.length 0 with hd
    obtain ⟨γ, hγ⟩ : ∃ γ, ∀ h ∈ hs, Spec.edge (e :: S) d (conf h) ≤ γ := by
      clear hp hq
      induction hs with
      | nil => exact ⟨0, by simp⟩
      | cons h hs ih =>
        obtain ⟨γ, hγ⟩ := ih
        refine ⟨max γ (Spec.edge (e :: S) d (conf h)), ?_⟩
        intro k hk
        rcases List.mem_cons.1 hk with rfl | hk
        · exact le_max_right _ _
        · exact (hγ k hk).trans (le_max_left _ _)
    have h1 : p.Feasible (γ :: d) := by
      rw [(hp.2.2 γ d).1]
      refine ⟨by simp [hd], ⟨?_, by simp [hd]⟩, hγ⟩
      intro q hq
      rcases List.mem_cons.1 hq with rfl | hq
      · norm_num
      · rw [List.eq_of_mem_replicate hq]; norm_num
    rw [(hq.2.2 γ d).1] at h1
    have h2 := (h1.2.1.1 1 (by simp [hd])).2
    rw [le_div_iff₀ (by linarith)] at h2
    linarith

/-! ### The theorems apply -/

/-- MLPBoost with tolerance 1/5 on two examples. -/
noncomputable def exMlp : MLPBoost (Fn Nat ℝ) :=
  { halfTolerance := 1 / 10, nSample := 2, nu := 1, eta := 0, primary := ⟨0, 1, .shortStep⟩, secondary := none,
    weights := [], hypotheses := [], terminated := 0, maxIter := 0, gamma := 1 }

theorem exMlp_ok : MlpOk exSample exMlp := by
  refine ⟨Or.inr rfl, ?_, le_rfl, ?_, ?_⟩
  · norm_num [exMlp]
  · norm_num [exMlp, exSample]
  · intro f h hfh e _
    have : f = h := by simpa [BEq.beq] using hfh
    rw [this]

/-- A hypothesis with margin 1 on the first example and 0 on the second. -/
def exFirst : Fn Nat ℝ := ⟨fun x => if x = 0 then 1 else 0⟩

/-- The hypotheses of `mlp_adopts_better` are met: a reachable second round that continues. -/
example (noise : Nat → Nat → ℝ) : ∃ solver : Solver ℝ, solver.Correct ∧ ∃ qs s out,
    (MLPBoost.booster solver noise exSample).Reachable (fun k d => if k = 1 then exFirst else exLearner k d) exMlp 1 qs s ∧
    (MLPBoost.booster solver noise exSample).boost s (fun k d => if k = 1 then exFirst else exLearner k d) 2 = .ok out ∧
    out.flow = .cont := by
  obtain ⟨solver, hsolver⟩ := exists_correct_solver
  refine ⟨solver, hsolver, ?_⟩
  set wl : WeakLearner ℝ (Fn Nat ℝ) := fun k d => if k = 1 then exFirst else exLearner k d with hwl
  have hlog := Real.log_two_gt_d9
  have hlim : 1 < mlpLimit exSample exMlp := by
    unfold mlpLimit
    rw [Nat.lt_ceil]
    norm_num [exSample, exMlp]
    linarith
  obtain ⟨s, hs⟩ : ∃ s, preprocess exSample exMlp = .ok s := by
    unfold preprocess
    rw [exSample_valid]
    simp only []
    rw [if_neg exMlp_ok.tol.ne']
    exact ⟨_, rfl⟩
  have hr : (MLPBoost.booster solver noise exSample).Reachable wl exMlp 0 [] s := .start hs
  obtain ⟨hi, -, -⟩ := mlp_inv exMlp_ok hsolver hr
  rcases boost_cases hi hsolver noise exMlp_ok.strategy exMlp_ok.tol exMlp_ok.one_le_nu exMlp_ok.nu_le exMlp_ok.beq with
      ⟨h0, h⟩ | ⟨d, -, -, hd, ⟨_, s', h, hi', -, hhyp, hw⟩ | ⟨hn, -⟩ | ⟨hn, -⟩⟩
  · have := hi.maxIter
    unfold mlpLimit at hlim
    omega
  · have hr1 : (MLPBoost.booster solver noise exSample).Reachable wl exMlp 1 [d] s' := .step hr h rfl
    have hdu : d = [1 / 2, 1 / 2] := by
      rw [expDist_zero (by intro x; rw [hi.zero rfl]; simp [weightedConf]) hd]
      simp [exSample, List.replicate]
    obtain ⟨out, ho, h1⟩ := mlp_round exSample exMlp exMlp_ok solver hsolver noise wl 1 [d] s' hr1
    refine ⟨_, s', out, hr1, ho, ?_⟩
    rcases h1 with ⟨h2, -⟩ | ⟨-, d', hq, hl, hc, -, -, h2⟩
    · omega
    · obtain ⟨v, hv, hiff⟩ := h2 le_rfl
      rw [hiff]
      have hv1 := hv.2 [0, 1] rfl (by constructor <;> simp [exMlp])
      have e1 : Spec.smoothedEdge exSample (mlpEta exSample exMlp) [0, 1]
          (Spec.vote conf (List.zip s'.weights s'.hypotheses)) = 1 / 10 := by
        have hl2 : Real.log 2 ≠ 0 := by linarith
        rw [hhyp, hw, hwl]
        simp [Spec.smoothedEdge, Spec.edge, Spec.vote, exSample, exFirst, conf, mlpEta, exMlp]
        field_simp
      rw [e1] at hv1
      have e2 : ([d] ++ [d']).mapIdx (fun k q => Spec.edge exSample q (conf (wl (k + 1) q))) = [1 / 2, 1 / 2] := by
        have e3 : Spec.edge exSample d (conf (wl 1 d)) = 1 / 2 := by
          rw [hdu, hwl]
          simp [Spec.edge, exSample, exFirst, conf]
        have e4 : Spec.edge exSample d' (conf (wl 2 d')) = 1 / 2 := by
          obtain ⟨-, hsum⟩ := hc
          match d', hl with
          | [a, b], _ =>
            simp only [List.sum_cons, List.sum_nil, add_zero] at hsum
            simp [Spec.edge, exSample, exLearner, conf, hwl]
            linarith
        simp [e3, e4]
      rw [e2]
      norm_num [exMlp]
      linarith
  · omega
  · omega

/-- A run of MLPBoost with a correct solver: it returns, and the soft margin is at least `1/2 - 1/5`. -/
example (noise : Nat → Nat → ℝ) : ∃ solver : Solver ℝ, solver.Correct ∧ ∃ f qs,
    (MLPBoost.booster solver noise exSample).run exLearner (mlpLimit exSample exMlp + 1) exMlp = some (.ok (f, qs)) ∧
      Spec.SoftMarginGe exSample 1 (conf f) (3 / 10 : ℝ) := by
  obtain ⟨solver, hsolver⟩ := exists_correct_solver
  have hedge : ∀ k d, d.length = exSample.length → Spec.IsCapped (1 : ℝ) d →
      Spec.edge exSample d (conf (exLearner k d)) = 1 / 2 := by
    intro k d hl hd
    obtain ⟨hpos, hsum⟩ := hd
    match d, hl with
    | [a, b], _ =>
      simp only [List.sum_cons, List.sum_nil, add_zero] at hsum
      simp [Spec.edge, exSample, exLearner, conf]
      linarith
  obtain ⟨f, qs, h⟩ := mlp_returns exSample exMlp exMlp_ok solver hsolver noise exSample_valid
    (by norm_num [exMlp, exSample]) exLearner
  refine ⟨solver, hsolver, f, qs, h, ?_⟩
  have := (mlp_soft_margin exSample exMlp exMlp_ok solver hsolver noise (by
      intro e he; simp [exSample] at he; rcases he with rfl | rfl <;> simp) exLearner (by
      intro k d e he
      simp [exSample] at he
      rcases he with rfl | rfl
      · simp only [exLearner, conf, if_true]; rw [abs_of_pos] <;> norm_num
      · simp only [exLearner, conf]; norm_num [abs_of_neg]) (1 / 2)
    (fun k d hl hd => (hedge k d hl hd).ge) _ f qs h).1
  have e1 : (1 / 2 : ℝ) - 2 * exMlp.halfTolerance = 3 / 10 := by norm_num [exMlp]
  rw [e1] at this
  exact this

end Miniboosts.Props
