import Verif.Lemmas.CERLPBoost
import Verif.Lemmas.MLPBoost
import Verif.Props.AdaBoost

/-! # Properties of CERLPBoost (C33, C52) -/

namespace Miniboosts.Props

open Real CERLPBoost

variable {H X : Type*} [Classifier H X ℝ] [BEq H]

/-- The number of rounds after which CERLPBoost stops at the latest: `⌈8 ln(m/ν) / (tolerance/2)²⌉`. -/
noncomputable def cerlpLimit (S : Examples X ℝ) (s₀ : CERLPBoost H) : Nat :=
  ⌈8 * log ((S.length : ℝ) / s₀.nu) / s₀.halfTolerance ^ 2⌉₊

/-- What the theorems assume of the parameters and of equality of hypotheses: the strategy is the default
(short step) or the classic one, the tolerance is positive, `ν` is in `[1, m]`, and hypotheses that compare
equal agree on the sample. -/
structure CerlpOk (S : Examples X ℝ) (s₀ : CERLPBoost H) : Prop where
  strategy : s₀.frankWolfe.fwType = .classic ∨ s₀.frankWolfe.fwType = .shortStep
  tol : 0 < s₀.halfTolerance
  one_le_nu : 1 ≤ s₀.nu
  nu_le : s₀.nu ≤ S.length
  beq : ∀ f h : H, (f == h) = true → ∀ e ∈ S, conf f e.1 = (conf h e.1 : ℝ)

theorem cerlp_inv {S : Examples X ℝ} {s₀ : CERLPBoost H} (ok : CerlpOk S s₀) {wl : WeakLearner ℝ H}
    {n : Nat} {qs : List (List ℝ)} {s : CERLPBoost H}
    (hr : (CERLPBoost.booster S).Reachable wl s₀ n qs s) :
    Inv S s₀ n s ∧ qs.length = n ∧ (∀ h ∈ s.hypotheses, ∃ k d, h = wl k d) := by
  induction hr with
  | start h =>
    have hi := inv_start h
    refine ⟨hi, rfl, ?_⟩
    have h1 := hi.len
    rw [hi.zero rfl] at h1
    rw [List.length_eq_zero_iff.1 h1.symm]; simp
  | @step n qs s₁ out hr hb hf ih =>
    obtain ⟨hi, hq, hm⟩ := ih
    rcases boost_cases hi ok.strategy ok.tol ok.one_le_nu ok.nu_le ok.beq wl with
      ⟨_, h⟩ | ⟨d, -, hd, ⟨_, h⟩ | ⟨_, s', h, hi', -, hm', -⟩⟩
    · rw [show boost S s₁ wl (n + 1) = .ok out from hb, Except.ok.injEq] at h; subst h; simp at hf
    · rw [show boost S s₁ wl (n + 1) = .ok out from hb, Except.ok.injEq] at h; subst h; simp at hf
    · rw [show boost S s₁ wl (n + 1) = .ok out from hb, Except.ok.injEq] at h; subst h
      refine ⟨hi', by simp [hq], ?_⟩
      intro k hk
      rcases hm' k hk with h1 | h1
      · exact hm k h1
      · exact ⟨_, _, h1⟩

/-- C33: after `n` rounds there is one weight per stored hypothesis; before the first round nothing is stored,
and after every later one the weights are a probability vector. -/
theorem cerlp_weights_simplex (S : Examples X ℝ) (s₀ : CERLPBoost H) (ok : CerlpOk S s₀)
    (wl : WeakLearner ℝ H) (n : Nat) (qs : List (List ℝ)) (s : CERLPBoost H)
    (hr : (CERLPBoost.booster S).Reachable wl s₀ n qs s) :
    s.weights.length = s.hypotheses.length ∧ (n = 0 → s.hypotheses = []) ∧ (1 ≤ n → Spec.IsProb s.weights) := by
  obtain ⟨hi, -, -⟩ := cerlp_inv ok hr
  refine ⟨hi.len, fun h0 => ?_, hi.prob⟩
  have h1 := hi.len
  rw [hi.zero h0] at h1
  exact List.length_eq_zero_iff.1 h1.symm

/-- C33: one call of `boost` from a reachable state never panics; it asks the weak learner exactly once, with
a distribution capped at `1/ν` without zero entries, unless the iteration limit has been reached; and it stops
exactly when the limit has been reached or the new hypothesis' edge exceeds that of the current vote by at
most half of the tolerance. -/
theorem cerlp_round (S : Examples X ℝ) (s₀ : CERLPBoost H) (ok : CerlpOk S s₀)
    (wl : WeakLearner ℝ H) (n : Nat) (qs : List (List ℝ)) (s : CERLPBoost H)
    (hr : (CERLPBoost.booster S).Reachable wl s₀ n qs s) :
    ∃ out, (CERLPBoost.booster S).boost s wl (n + 1) = .ok out ∧
      ((n = cerlpLimit S s₀ ∧ out.queries = [] ∧ out.flow = .brk n) ∨
       (n < cerlpLimit S s₀ ∧ ∃ d, out.queries = [d] ∧ d.length = S.length ∧ Spec.IsCapped s₀.nu d ∧
        Spec.IsPosProb d ∧
        (out.flow = .cont ↔ s₀.halfTolerance < Spec.edge S d (conf (wl (n + 1) d)) -
          Spec.edge S d (Spec.vote conf (List.zip s.weights s.hypotheses))))) := by
  obtain ⟨hi, -, -⟩ := cerlp_inv ok hr
  have hv : Spec.vote conf (List.zip s.weights s.hypotheses) = weightedConf (X := X) s.weights s.hypotheses := by
    funext x; rw [weightedConf_eq_vote]
  have hlim : s.maxIter = cerlpLimit S s₀ := hi.maxIter
  rw [hv]
  rcases boost_cases hi ok.strategy ok.tol ok.one_le_nu ok.nu_le ok.beq wl with
      ⟨h0, h⟩ | ⟨d, h0, hd, ⟨hg, h⟩ | ⟨hg, s', h, -⟩⟩
  · exact ⟨_, h, Or.inl ⟨by rw [← hlim, h0], rfl, rfl⟩⟩
  · obtain ⟨h1, h2, h3, -, -⟩ := hd.capped
    exact ⟨_, h, Or.inr ⟨by omega, d, rfl, h1, h2, h3, by simp [not_lt.2 hg]⟩⟩
  · obtain ⟨h1, h2, h3, -, -⟩ := hd.capped
    exact ⟨_, h, Or.inr ⟨by omega, d, rfl, h1, h2, h3, by simp [hg]⟩⟩

/-- C33: `run` finishes after at most `⌈8 ln(m/ν)/(tolerance/2)²⌉` calls of the weak learner, each of which
receives a distribution capped at `1/ν`. -/
theorem cerlp_terminates (S : Examples X ℝ) (s₀ : CERLPBoost H) (ok : CerlpOk S s₀) (wl : WeakLearner ℝ H) :
    ∃ r, (CERLPBoost.booster S).run wl (cerlpLimit S s₀ + 1) s₀ = some r ∧
      ∀ f qs, r = .ok (f, qs) → qs.length ≤ cerlpLimit S s₀ ∧
        ∀ d ∈ qs, d.length = S.length ∧ Spec.IsCapped s₀.nu d ∧ Spec.IsPosProb d := by
  have hqs : ∀ {n qs s} (_ : (CERLPBoost.booster S).Reachable wl s₀ n qs s),
      ∀ d ∈ qs, d.length = S.length ∧ Spec.IsCapped s₀.nu d ∧ Spec.IsPosProb d := by
    intro n qs s hr
    induction hr with
    | start _ => simp
    | step hr hb hf ih =>
      intro d hd
      rcases List.mem_append.1 hd with h | h
      · exact ih d h
      · obtain ⟨out, ho, h1⟩ := cerlp_round S s₀ ok wl _ _ _ hr
        rw [ho, Except.ok.injEq] at hb; subst hb
        rcases h1 with ⟨-, h2, -⟩ | ⟨-, d', h2, h3, h4, h5, -⟩
        · rw [h2] at h; simp at h
        · rw [h2] at h; simp at h; subst h; exact ⟨h3, h4, h5⟩
  obtain ⟨r, hr⟩ := (CERLPBoost.booster S).run_terminates wl s₀ (cerlpLimit S s₀) (by
    intro qs s out hr hb
    obtain ⟨out', ho, h1⟩ := cerlp_round S s₀ ok wl _ _ _ hr
    rw [ho, Except.ok.injEq] at hb; subst hb
    rcases h1 with ⟨-, -, h2⟩ | ⟨h2, -⟩
    · rw [h2]; simp
    · omega)
  refine ⟨r, hr, ?_⟩
  rintro f qs rfl
  obtain ⟨n, qs', s', out, k, h1, h2, h3, h4, h5, h6⟩ := (CERLPBoost.booster S).run_spec wl s₀ hr
  obtain ⟨out', ho, h7⟩ := cerlp_round S s₀ ok wl _ _ _ h1
  rw [ho, Except.ok.injEq] at h3; subst h3
  have hl := (cerlp_inv ok h1).2.1
  rcases h7 with ⟨h8, h9, -⟩ | ⟨h8, d, h9, h10, h11, h12, -⟩
  · rw [h5, h9, List.append_nil]
    exact ⟨by omega, hqs h1⟩
  · rw [h5, h9]
    refine ⟨by simp; omega, ?_⟩
    intro d' hd'
    rcases List.mem_append.1 hd' with h | h
    · exact hqs h1 d' h
    · simp at h; subst h; exact ⟨h10, h11, h12⟩

/-- The convergence invariant: after `n ≥ 1` rounds the potential of the current vote is within
`8 η² / (n+2)` of `η ρ`. -/
theorem cerlp_gap {S : Examples X ℝ} {s₀ : CERLPBoost H} (ok : CerlpOk S s₀) (hS : Spec.PmLabels S)
    {wl : WeakLearner ℝ H} (hconf : ∀ k d, ∀ e ∈ S, |conf (wl k d) e.1| ≤ (1 : ℝ)) {ρ : ℝ}
    (hwl : ∀ k d, d.length = S.length → Spec.IsCapped s₀.nu d → ρ ≤ Spec.edge S d (conf (wl k d)))
    {n : Nat} {qs : List (List ℝ)} {s : CERLPBoost H}
    (hr : (CERLPBoost.booster S).Reachable wl s₀ n qs s) (hn : 1 ≤ n) (e : List ℝ)
    (he : IsExpDist s.eta s₀.nu S (weightedConf s.weights s.hypotheses) e) :
    s.eta * ρ - pot s.eta S (weightedConf s.weights s.hypotheses) e ≤ 8 * s.eta ^ 2 / ((n : ℝ) + 2) := by
  induction hr generalizing e with
  | start _ => omega
  | @step n qs s₁ out hr hb hf ih =>
    obtain ⟨hi, hq, hm⟩ := cerlp_inv ok hr
    rcases boost_cases hi ok.strategy ok.tol ok.one_le_nu ok.nu_le ok.beq wl with
      ⟨_, h⟩ | ⟨d, hlt, hd, ⟨_, h⟩ | ⟨hG, s', h, hi', heta, hm', σ, c, h0, h1, hF, hc, hqual⟩⟩
    · rw [show boost S s₁ wl (n + 1) = .ok out from hb, Except.ok.injEq] at h; subst h; simp at hf
    · rw [show boost S s₁ wl (n + 1) = .ok out from hb, Except.ok.injEq] at h; subst h; simp at hf
    rw [show boost S s₁ wl (n + 1) = .ok out from hb, Except.ok.injEq] at h; subst h
    simp only [] at he ⊢
    rw [heta] at he ⊢
    obtain ⟨hdl, hdc, hdp, -, -⟩ := hd.capped
    have hlab : ∀ p ∈ S, |p.2| = 1 := by
      intro p hp; rcases hS p hp with h | h <;> rw [h] <;> simp
    -- all votes are bounded by one
    have hFb : ∀ p ∈ S, |weightedConf s₁.weights s₁.hypotheses p.1| ≤ (1 : ℝ) := by
      intro p hp
      rcases Nat.eq_zero_or_pos n with h | h
      · rw [hi.zero h]; simp [weightedConf]
      · obtain ⟨a, b⟩ := hi.prob h
        exact weightedConf_abs_le _ _ _ a b.le (fun k hk => by
          obtain ⟨j, d', rfl⟩ := hm k hk; exact hconf j d' p hp)
    have h2 : ∀ p ∈ S, |p.2 * conf (wl (n + 1) d) p.1 - p.2 * weightedConf s₁.weights s₁.hypotheses p.1| ≤
        (2 : ℝ) := by
      intro p hp
      rw [← mul_sub, abs_mul, hlab p hp, one_mul]
      have := hconf (n + 1) d p hp
      have := hFb p hp
      refine (abs_sub _ _).trans ?_
      linarith
    have hqual := hqual h2
    have hrho := hwl (n + 1) d hdl hdc
    have hsm := pot_smooth (c := σ * c) hd he (by
      intro p hp
      rw [hF p hp]
      have : p.2 * ((1 - σ) * weightedConf s₁.weights s₁.hypotheses p.1 + σ * conf (wl (n + 1) d) p.1) -
          p.2 * weightedConf s₁.weights s₁.hypotheses p.1 =
          σ * (p.2 * conf (wl (n + 1) d) p.1 - p.2 * weightedConf s₁.weights s₁.hypotheses p.1) := by ring
      rw [this, abs_mul, abs_of_nonneg h0]
      exact mul_le_mul_of_nonneg_left (hc p hp) h0)
    rw [specEdge_congr d (G := fun x => ((1 : ℝ) - σ) * weightedConf s₁.weights s₁.hypotheses x +
      σ * conf (wl (n + 1) d) x) hF, edge_sub] at hsm
    have hpe := edge_le_pot hd
    set F := weightedConf (X := X) s₁.weights s₁.hypotheses
    set A := Spec.edge S d (conf (wl (n + 1) d))
    set B := Spec.edge S d F
    set η := s₁.eta
    have hη : 0 ≤ η := by
      rw [show η = _ from hi.eta]
      apply div_nonneg _ ok.tol.le
      apply log_nonneg
      rw [le_div_iff₀ (by linarith [ok.one_le_nu]), one_mul]; exact ok.nu_le
    set P' := pot η S (weightedConf s'.weights s'.hypotheses) e
    have hP : pot η S F d = entropyFromUni d + η * B := rfl
    set P := pot η S F d
    have hn2 : (0 : ℝ) < (n : ℝ) + 2 := by positivity
    -- the step in terms of the potential
    have hstep : P + η * (2 / ((n : ℝ) + 2) * (A - B) - 2 * (2 / ((n : ℝ) + 2)) ^ 2 * η) ≤ P' := by
      have := mul_le_mul_of_nonneg_left hqual hη
      have e1 : entropyFromUni d + η * ((1 - σ) * B + σ * A) - (σ * c) ^ 2 * η ^ 2 / 2 =
          P + η * (σ * (A - B) - σ ^ 2 * (η * c ^ 2) / 2) := by rw [hP]; ring
      rw [e1] at hsm
      linarith
    have hAB : η * ρ - P ≤ η * (A - B) := by
      have := mul_le_mul_of_nonneg_left hrho hη
      have : η * (A - B) = η * A - η * B := by ring
      linarith
    set τ := 2 / ((n : ℝ) + 2) with hτ
    have hτ0 : 0 ≤ τ := by positivity
    have hgap : η * ρ - P' ≤ (1 - τ) * (η * ρ - P) + 2 * τ ^ 2 * η ^ 2 := by
      have := mul_le_mul_of_nonneg_left hAB hτ0
      nlinarith
    have hcast : ((n + 1 : ℕ) : ℝ) + 2 = (n : ℝ) + 3 := by push_cast; ring
    rw [hcast]
    rcases Nat.eq_zero_or_pos n with h | h
    · rw [h] at hτ ⊢
      have : τ = 1 := by rw [hτ]; norm_num
      rw [this] at hgap
      norm_num
      nlinarith [sq_nonneg η]
    · have hih := ih h d hd
      have hn0 : (0 : ℝ) ≤ n := Nat.cast_nonneg n
      have h1τ : 0 ≤ 1 - τ := by
        rw [hτ, sub_nonneg, div_le_one hn2]; linarith
      have h3 := mul_le_mul_of_nonneg_left hih h1τ
      refine hgap.trans ?_
      have h4 : (1 - τ) * (8 * η ^ 2 / ((n : ℝ) + 2)) + 2 * τ ^ 2 * η ^ 2 =
          8 * η ^ 2 * (((n : ℝ) + 1) / ((n : ℝ) + 2) ^ 2) := by
        rw [hτ]; field_simp; ring
      have h5 : ((n : ℝ) + 1) / ((n : ℝ) + 2) ^ 2 ≤ 1 / ((n : ℝ) + 3) := by
        rw [div_le_div_iff₀ (by positivity) (by positivity)]
        nlinarith
      have h6 := mul_le_mul_of_nonneg_left h5 (by positivity : (0 : ℝ) ≤ 8 * η ^ 2)
      rw [mul_one_div] at h6
      linarith

/-- C33, the optimality guarantee: if on every distribution capped at `1/ν` the weak learner returns a
hypothesis of edge at least `ρ`, then the combined hypothesis returned by `run` has edge at least
`ρ - tolerance` under *every* distribution capped at `1/ν` -- its soft margin is within the tolerance of the
best possible. -/
theorem cerlp_soft_margin (S : Examples X ℝ) (s₀ : CERLPBoost H) (ok : CerlpOk S s₀) (hS : Spec.PmLabels S)
    (wl : WeakLearner ℝ H) (hconf : ∀ k d, ∀ e ∈ S, |conf (wl k d) e.1| ≤ (1 : ℝ)) (ρ : ℝ)
    (hwl : ∀ k d, d.length = S.length → Spec.IsCapped s₀.nu d → ρ ≤ Spec.edge S d (conf (wl k d)))
    (fuel : Nat) (f : WeightedMajority ℝ H) (qs : List (List ℝ))
    (hrun : (CERLPBoost.booster S).run wl fuel s₀ = some (.ok (f, qs)))
    (d : List ℝ) (hdl : d.length = S.length) (hd : Spec.IsCapped s₀.nu d) :
    ρ - 2 * s₀.halfTolerance ≤ Spec.edge S d (conf f) ∧ Spec.IsProb f.weights := by
  obtain ⟨n, qs', s, out, k, hr, -, hb, hf, -, hpost⟩ := (CERLPBoost.booster S).run_spec wl s₀ hrun
  obtain ⟨hi, -, -⟩ := cerlp_inv ok hr
  set ε := s₀.halfTolerance with hε
  have hεpos : 0 < ε := ok.tol
  obtain ⟨e, he⟩ := exists_expDist s.eta s₀.nu S (weightedConf s.weights s.hypotheses) ok.one_le_nu ok.nu_le
  have hsame : out.state.weights = s.weights ∧ out.state.hypotheses = s.hypotheses := by
    rcases boost_cases hi ok.strategy ok.tol ok.one_le_nu ok.nu_le ok.beq wl with
      ⟨_, h⟩ | ⟨d, -, hd, ⟨_, h⟩ | ⟨_, s', h, -⟩⟩
    · rw [show boost S s wl (n + 1) = .ok out from hb, Except.ok.injEq] at h; subst h; simp
    · rw [show boost S s wl (n + 1) = .ok out from hb, Except.ok.injEq] at h; subst h; simp
    · rw [show boost S s wl (n + 1) = .ok out from hb, Except.ok.injEq] at h; subst h; simp at hf
  have hpost' : WeightedMajority.fromSlices s.weights s.hypotheses = .ok f := by
    have : WeightedMajority.fromSlices out.state.weights out.state.hypotheses = .ok f := hpost
    rwa [hsame.1, hsame.2] at this
  have hn : 1 ≤ n := by
    by_contra h0
    rw [hi.zero (by omega)] at hpost'
    rcases fromSlices_cases (K := ℝ) [] s.hypotheses with ⟨_, h2⟩ | ⟨h1, _⟩
    · rw [h2] at hpost'; simp at hpost'
    · simp at h1
  obtain ⟨f', hf', hfc, hfp⟩ := fromSlices_prob (X := X) s.weights s.hypotheses hi.len (hi.prob hn)
  rw [hf', Except.ok.injEq] at hpost'
  subst hpost'
  refine ⟨?_, hfp⟩
  rw [specEdge_congr d (fun p _ => hfc p.1)]
  have hpl := pot_le_edge he hdl hd
  set F := weightedConf (X := X) s.weights s.hypotheses
  set L := log ((S.length : ℝ) / s₀.nu) with hL
  have hηL : s.eta * ε = L := by rw [hi.eta]; exact div_mul_cancel₀ _ hεpos.ne'
  -- the potential is large
  have hmaxpos : 0 < s.maxIter := by have := hi.le; omega
  have hLpos : 0 < L := by
    by_contra h0
    have : s.maxIter = 0 := by
      rw [hi.maxIter, Nat.ceil_eq_zero]
      apply div_nonpos_of_nonpos_of_nonneg
      · rw [← hL]; linarith
      · positivity
    omega
  have hηpos : 0 < s.eta := by
    by_contra h0
    have := mul_nonpos_of_nonpos_of_nonneg (not_lt.1 h0) hεpos.le
    linarith
  have hpot : s.eta * (ρ - ε) ≤ pot s.eta S F e := by
    rcases boost_cases hi ok.strategy ok.tol ok.one_le_nu ok.nu_le ok.beq wl with
      ⟨h0, h⟩ | ⟨d', -, hd', ⟨hg, h⟩ | ⟨_, s', h, -⟩⟩
    · have hgap := cerlp_gap ok hS hconf hwl hr hn e he
      have hnn : 8 * L / ε ^ 2 ≤ (n : ℝ) := by
        rw [← h0, hi.maxIter]; exact Nat.le_ceil _
      have h1 : 8 * s.eta ^ 2 / ((n : ℝ) + 2) ≤ s.eta * ε := by
        rw [div_le_iff₀ (by positivity)]
        rw [div_le_iff₀ (by positivity)] at hnn
        rw [← hηL] at hnn
        have h2 : 8 * s.eta ≤ n * ε := by
          have : ε * (8 * s.eta) ≤ ε * (n * ε) := by linarith
          exact le_of_mul_le_mul_left this hεpos
        nlinarith
      linarith
    · have hu : d' = e := by
        have h1 : projectCapped _ _ = .ok d' := hd'
        have h2 : projectCapped _ _ = .ok e := he
        rw [h1, Except.ok.injEq] at h2; exact h2
      subst hu
      obtain ⟨h1, h2, -⟩ := hd'.capped
      have h3 := hwl (n + 1) d' h1 h2
      have h4 := edge_le_pot hd'
      refine le_trans ?_ h4
      apply mul_le_mul_of_nonneg_left _ hηpos.le
      linarith
    · rw [show boost S s wl (n + 1) = .ok out from hb, Except.ok.injEq] at h; subst h; simp at hf
  have : s.eta * (ρ - 2 * ε) ≤ s.eta * Spec.edge S d F := by
    have : s.eta * (ρ - 2 * ε) = s.eta * (ρ - ε) - L := by rw [← hηL]; ring
    linarith
  exact le_of_mul_le_mul_left this hηpos

omit [Classifier H X ℝ] [BEq H] in
/-- The exponential distribution of the zero vote is the uniform one. -/
theorem expDist_zero {eta nu : ℝ} {S : Examples X ℝ} {F : X → ℝ} (hF : ∀ x, F x = 0) {d : List ℝ}
    (hd : IsExpDist eta nu S F d) : d = List.replicate S.length (1 / (S.length : ℝ)) := by
  obtain ⟨h1, h2, h3, h4, h5⟩ := hd.capped
  have hpos : (0 : ℝ) < S.length := by linarith
  set u := List.replicate S.length (1 / (S.length : ℝ)) with hu
  have hul : u.length = S.length := by simp [hu]
  have hus : u.sum = 1 := by rw [hu, List.sum_replicate, nsmul_eq_mul]; field_simp
  have hcap : Spec.IsCapped nu u := by
    refine ⟨?_, hus⟩
    intro p hp
    rw [List.eq_of_mem_replicate hp]
    exact ⟨by positivity, one_div_le_one_div_of_le (by linarith) h5⟩
  have hm := pot_min hd hul hcap
  have hz : ∀ e : List ℝ, Spec.edge S e F = 0 := by
    intro e
    unfold Spec.edge
    simp [hF]
  unfold pot at hm
  rw [hz, hz, mul_zero, add_zero, add_zero] at hm
  obtain ⟨b1, b2, -⟩ := entropyFromUni_bounds d ⟨fun p hp => (h3.1 p hp).le, h3.2⟩
  obtain ⟨-, b3, -⟩ := entropyFromUni_bounds u ⟨fun p hp => (hcap.1 p hp).1, hus⟩
  rw [b3.2 (by rw [hul])] at hm
  have := b2.1 (le_antisymm hm b1)
  rwa [h1] at this

/-- When the labels are valid, `1 ≤ ν < m` and the weak learner's answer to the uniform distribution has an edge above half of the
tolerance, `run` returns a hypothesis (it does not panic). -/
theorem cerlp_returns_uniform (S : Examples X ℝ) (s₀ : CERLPBoost H) (ok : CerlpOk S s₀)
    (hvalid : checkBinary S = .ok ()) (hnu : s₀.nu < S.length) (wl : WeakLearner ℝ H)
    (hwl : s₀.halfTolerance < Spec.edge S (List.replicate S.length (1 / (S.length : ℝ)))
      (conf (wl 1 (List.replicate S.length (1 / (S.length : ℝ)))))) :
    ∃ f qs, (CERLPBoost.booster S).run wl (cerlpLimit S s₀ + 1) s₀ = some (.ok (f, qs)) := by
  have hpos : 0 < cerlpLimit S s₀ := by
    unfold cerlpLimit
    rw [Nat.ceil_pos]
    apply div_pos _ (by have := ok.tol; positivity)
    have : 0 < log ((S.length : ℝ) / s₀.nu) := by
      apply log_pos
      rw [lt_div_iff₀ (by linarith [ok.one_le_nu]), one_mul]; exact hnu
    linarith
  obtain ⟨r, hr, -⟩ := cerlp_terminates S s₀ ok wl
  have hpre : ∃ s, (CERLPBoost.booster S).preprocess s₀ wl = .ok s := by
    show ∃ s, preprocess S s₀ = .ok s
    unfold preprocess
    rw [hvalid]
    exact ⟨_, rfl⟩
  obtain ⟨s, hs⟩ := hpre
  have hr' := hr
  unfold Booster.run at hr
  rw [hs] at hr
  simp only [] at hr
  cases hl : (CERLPBoost.booster S).loop wl (cerlpLimit S s₀ + 1) s 1 with
  | none => rw [hl] at hr; simp at hr
  | some x =>
    rw [hl] at hr
    have hstart : (CERLPBoost.booster S).Reachable wl s₀ 0 [] s := .start hs
    rcases (CERLPBoost.booster S).loop_spec wl s₀ hstart hl with
      ⟨n, qs, s', h1, -, e, h2, h3⟩ | ⟨n, qs, s', out, k, h1, h2, h3, h4, qs', h5, h6⟩
    · obtain ⟨out, ho, -⟩ := cerlp_round S s₀ ok wl _ _ _ h1
      rw [ho] at h2; simp at h2
    · subst h6
      simp only [] at hr
      obtain ⟨hi, -, -⟩ := cerlp_inv ok h1
      have hn : 1 ≤ n := by
        by_contra h0
        have h0 : n = 0 := by omega
        subst h0
        have hz : ∀ x : X, weightedConf s'.weights s'.hypotheses x = 0 := by
          intro x; rw [hi.zero rfl]; unfold weightedConf; simp
        rcases boost_cases hi ok.strategy ok.tol ok.one_le_nu ok.nu_le ok.beq wl with
          ⟨h8, -⟩ | ⟨d, -, hd, ⟨hg, -⟩ | ⟨-, s'', h, -⟩⟩
        · have hmax : s'.maxIter = cerlpLimit S s₀ := hi.maxIter
          omega
        · have hzz : Spec.edge S d (weightedConf s'.weights s'.hypotheses) = 0 := by
            unfold Spec.edge; simp [hz]
          rw [expDist_zero hz hd] at hg hzz
          rw [hzz] at hg
          simp only [Nat.zero_add] at hg
          linarith
        · rw [show boost S s' wl (0 + 1) = .ok out from h3, Except.ok.injEq] at h; subst h; simp at h4
      have hsame : out.state.weights = s'.weights ∧ out.state.hypotheses = s'.hypotheses := by
        rcases boost_cases hi ok.strategy ok.tol ok.one_le_nu ok.nu_le ok.beq wl with
          ⟨_, h⟩ | ⟨d, -, hd, ⟨_, h⟩ | ⟨_, s', h, -⟩⟩
        · rw [show boost S s' wl (n + 1) = .ok out from h3, Except.ok.injEq] at h; subst h; simp
        · rw [show boost S s' wl (n + 1) = .ok out from h3, Except.ok.injEq] at h; subst h; simp
        · rw [show boost S _ wl (n + 1) = .ok out from h3, Except.ok.injEq] at h; subst h; simp at h4
      obtain ⟨f, hf, -, -⟩ := fromSlices_prob (X := X) s'.weights s'.hypotheses hi.len (hi.prob hn)
      have hpost : (CERLPBoost.booster S).postprocess out.state = .ok f := by
        show WeightedMajority.fromSlices out.state.weights out.state.hypotheses = .ok f
        rw [hsame.1, hsame.2, hf]
      rw [hpost] at hr
      simp only [Option.some.injEq] at hr
      exact ⟨f, _, by rw [hr', ← hr]⟩

/-- When the labels are valid, `1 ≤ ν < m` and the weak learner's edges exceed half of the tolerance, `run`
returns a hypothesis (it does not panic). -/
theorem cerlp_returns (S : Examples X ℝ) (s₀ : CERLPBoost H) (ok : CerlpOk S s₀)
    (hvalid : checkBinary S = .ok ()) (hnu : s₀.nu < S.length) (wl : WeakLearner ℝ H)
    (hwl : ∀ d, d.length = S.length → Spec.IsCapped s₀.nu d →
      s₀.halfTolerance < Spec.edge S d (conf (wl 1 d))) :
    ∃ f qs, (CERLPBoost.booster S).run wl (cerlpLimit S s₀ + 1) s₀ = some (.ok (f, qs)) := by
  have hS : (0 : ℝ) < S.length := by linarith [ok.one_le_nu]
  refine cerlp_returns_uniform S s₀ ok hvalid hnu wl (hwl _ (by simp) ⟨?_, ?_⟩)
  · intro p hp
    rw [List.eq_of_mem_replicate hp]
    exact ⟨by positivity, one_div_le_one_div_of_le (by linarith [ok.one_le_nu]) hnu.le⟩
  · rw [List.sum_replicate, nsmul_eq_mul]; field_simp

/-- C33, a disagreement with the documentation: with `ν = m` (allowed by the setter) the iteration limit is 0,
nothing is ever learned and `run` panics. -/
theorem cerlp_nu_eq_m_panics (S : Examples X ℝ) (s₀ : CERLPBoost H) (ok : CerlpOk S s₀)
    (hnu : s₀.nu = S.length) (wl : WeakLearner ℝ H) (fuel : Nat) (f : WeightedMajority ℝ H)
    (qs : List (List ℝ)) : (CERLPBoost.booster S).run wl fuel s₀ ≠ some (.ok (f, qs)) := by
  intro hrun
  obtain ⟨n, qs', s, out, k, hr, -, hb, hf, -, hpost⟩ := (CERLPBoost.booster S).run_spec wl s₀ hrun
  obtain ⟨hi, -, -⟩ := cerlp_inv ok hr
  have hm : s.maxIter = 0 := by
    rw [hi.maxIter, hnu, div_self (by have := ok.one_le_nu; rw [hnu] at this; linarith)]
    simp
  have hn : n = 0 := by have := hi.le; omega
  subst hn
  have h : boost S s wl (0 + 1) = .ok { state := s, flow := .brk 0, queries := [] } := by
    unfold boost
    rw [if_pos (by omega), hm]
  rw [show boost S s wl (0 + 1) = .ok out from hb, Except.ok.injEq] at h
  subst h
  have hpost' : WeightedMajority.fromSlices s.weights s.hypotheses = .ok f := hpost
  rw [hi.zero rfl] at hpost'
  rcases fromSlices_cases (K := ℝ) [] s.hypotheses with ⟨_, h2⟩ | ⟨h1, _⟩
  · rw [h2] at hpost'; simp at hpost'
  · simp at h1

/-- C52 for CERLPBoost: a second run on the same object gives what a fresh object with the same parameters
gives -- nothing of the earlier history is left. -/
theorem cerlp_history_independent (S : Examples X ℝ) (s t : CERLPBoost H) (wl : WeakLearner ℝ H)
    (hnu : s.nu = t.nu) (htol : s.halfTolerance = t.halfTolerance)
    (hfwnu : s.frankWolfe.nu = t.frankWolfe.nu) (hfwt : s.frankWolfe.fwType = t.frankWolfe.fwType) (fuel : Nat) :
    (CERLPBoost.booster S).run wl fuel s = (CERLPBoost.booster S).run wl fuel t := by
  have hpre : preprocess S s = preprocess S t := by
    unfold preprocess
    cases checkBinary S with
    | error e => rfl
    | ok u => simp [regularizationParam, maxLoop, hnu, htol, hfwnu, hfwt]
  unfold Booster.run
  rw [show (CERLPBoost.booster S).preprocess s wl = preprocess S s from rfl,
    show (CERLPBoost.booster S).preprocess t wl = preprocess S t from rfl, hpre]

/-! ## The hypotheses are met -/

/-- Equality of the example hypotheses, decided classically. -/
noncomputable instance : BEq (Fn Nat ℝ) := ⟨fun a b => @decide (a = b) (Classical.dec _)⟩

/-- CERLPBoost with tolerance 1/5 on two examples. -/
noncomputable def exCerlp : CERLPBoost (Fn Nat ℝ) := (CERLPBoost.init exSample).setTolerance (1 / 5)

theorem exCerlp_ok : CerlpOk exSample exCerlp := by
  refine ⟨Or.inr rfl, ?_, le_rfl, ?_, ?_⟩
  · norm_num [exCerlp, setTolerance, CERLPBoost.init]
  · norm_num [exCerlp, setTolerance, CERLPBoost.init, exSample]
  · intro f h hfh e _
    have : f = h := by simpa [BEq.beq] using hfh
    rw [this]

example : ∃ f qs, (CERLPBoost.booster exSample).run exLearner (cerlpLimit exSample exCerlp + 1) exCerlp =
    some (.ok (f, qs)) ∧ ∀ d, d.length = exSample.length → Spec.IsCapped 1 d →
      (3 / 10 : ℝ) ≤ Spec.edge exSample d (conf f) := by
  have hedge : ∀ k d, d.length = exSample.length → Spec.IsCapped (1 : ℝ) d →
      Spec.edge exSample d (conf (exLearner k d)) = 1 / 2 := by
    intro k d hl hd
    obtain ⟨hpos, hsum⟩ := hd
    match d, hl with
    | [a, b], _ =>
      simp only [List.sum_cons, List.sum_nil, add_zero] at hsum
      simp [Spec.edge, exSample, exLearner, conf]
      linarith
  obtain ⟨f, qs, h⟩ := cerlp_returns exSample exCerlp exCerlp_ok exSample_valid
    (by norm_num [exCerlp, setTolerance, CERLPBoost.init, exSample]) exLearner (by
      intro d hl hd
      rw [hedge 1 d hl hd]
      norm_num [exCerlp, setTolerance, CERLPBoost.init])
  refine ⟨f, qs, h, ?_⟩
  intro d hl hd
  have := (cerlp_soft_margin exSample exCerlp exCerlp_ok (by
      intro e he; simp [exSample] at he; rcases he with rfl | rfl <;> simp) exLearner (by
      intro k d e he
      simp [exSample] at he
      rcases he with rfl | rfl
      · simp only [exLearner, conf, if_true]; rw [abs_of_pos] <;> norm_num
      · simp only [exLearner, conf]; norm_num [abs_of_neg]) (1 / 2)
    (fun k d hl hd => (hedge k d hl hd).ge) _ f qs h d hl hd).1
  refine le_trans ?_ this
  norm_num [exCerlp, setTolerance, CERLPBoost.init]

/-- The line-search theorem applies: the constant 0 with weight 1, and a hypothesis with margin 1/2 on both
examples; the line search gives the better hypothesis a weight of at most `10⁻⁹`. -/
example : ∃ s, 0 ≤ s ∧ s ≤ 1 / 10 ^ 9 ∧
    FrankWolfe.lineSearch ⟨1, 1, .lineSearch⟩ exSample [⟨fun _ => 0⟩, exLearner 1 []] 1 [1, 0] =
      .ok [1 + s * -1, 0 + s * (1 - 0)] := by
  obtain ⟨s, h0, h1, h2⟩ := lineSearch_ignores_better_hypothesis ⟨1, 1, .lineSearch⟩ exSample
    [⟨fun _ => 0⟩, exLearner 1 []] 1 (exLearner 1 []) [1, 0] rfl rfl le_rfl (by norm_num [exSample]) (by
      intro e he
      simp [exSample] at he
      rcases he with rfl | rfl
      · norm_num [weightedConf, exLearner, conf]
      · norm_num [weightedConf, exLearner, conf])
  exact ⟨s, h0, h1, by rw [h2]; simp⟩

/-- And so does the opposite one: the worse hypothesis (margin 0 instead of 1/2) gets all of the weight. -/
example : FrankWolfe.lineSearch ⟨1, 1, .lineSearch⟩ exSample [⟨fun _ => 0⟩, exLearner 1 []] 0 [0, 1] =
      .ok [1, 0] := by
  rw [lineSearch_jumps_to_worse_hypothesis ⟨1, 1, .lineSearch⟩ exSample
    [⟨fun _ => 0⟩, exLearner 1 []] 0 ⟨fun _ => 0⟩ [0, 1] rfl rfl le_rfl (by norm_num [exSample]) (by
      intro e he
      simp [exSample] at he
      rcases he with rfl | rfl
      · norm_num [weightedConf, exLearner, conf]
      · norm_num [weightedConf, exLearner, conf])]
  simp

end Miniboosts.Props
