import Verif.Lemmas.MadaBoost
import Verif.Model.SmoothBoost
import Mathlib.Analysis.SpecialFunctions.Log.Deriv
import Mathlib.Analysis.SpecialFunctions.Trigonometric.DerivHyp

/-! Helper lemmas for SmoothBoost: the potential argument. -/

namespace Miniboosts

open Real

variable {H X : Type*}

namespace SmoothBoost

/-- The rate `c = -½ ln(1-γ)`. -/
noncomputable def rate (γ : ℝ) : ℝ := -(log (1 - γ)) / 2

/-- The unnormalised weight as a function of the accumulated margin. -/
noncomputable def mu (γ N : ℝ) : ℝ := if N ≤ 0 then 1 else (1 - γ) ^ (N * (1 / 2))

/-- The integral of `mu` from zero. -/
noncomputable def Phi (γ N : ℝ) : ℝ := if N ≤ 0 then N else (1 - exp (-(rate γ * N))) / rate γ

theorem mu_eq {γ : ℝ} (h1 : γ < 1) (N : ℝ) : mu γ N = if N ≤ 0 then 1 else exp (-(rate γ * N)) := by
  unfold mu rate
  split
  · rfl
  · rw [rpow_def_of_pos (by linarith)]; congr 1; ring

theorem rate_bounds {γ : ℝ} (h0 : 0 < γ) (h1 : γ ≤ 1 / 2) :
    γ / 2 ≤ rate γ ∧ rate γ ≤ (γ + γ ^ 2) / 2 := by
  unfold rate
  have hpos : 0 < 1 - γ := by linarith
  constructor
  · have := log_le_sub_one_of_pos hpos
    linarith
  · have hx : 0 ≤ γ + γ ^ 2 := by positivity
    have hq := Real.quadratic_le_exp_of_nonneg hx
    have h1' : 1 ≤ exp (γ + γ ^ 2) * (1 - γ) := by
      have : 1 ≤ (1 + (γ + γ ^ 2) + (γ + γ ^ 2) ^ 2 / 2) * (1 - γ) := by
        have : 0 ≤ γ ^ 2 * (1 - γ - γ ^ 2 - γ ^ 3) := by
          apply mul_nonneg (sq_nonneg _)
          nlinarith [mul_pos h0 h0]
        nlinarith
      nlinarith
    have h2 := log_le_log one_pos h1'
    rw [log_one, log_mul (exp_pos _).ne' hpos.ne', log_exp] at h2
    linarith

theorem rate_pos {γ : ℝ} (h0 : 0 < γ) (h1 : γ ≤ 1 / 2) : 0 < rate γ := by
  have := (rate_bounds h0 h1).1; linarith

/-- The curvature error of one step of size at most `a`. -/
noncomputable def curv (c a : ℝ) : ℝ := (exp (c * a) - 1) / c - a

theorem curv_mono {c a b : ℝ} (hc : 0 < c) (ha : 0 ≤ a) (hab : a ≤ b) : curv c a ≤ curv c b := by
  unfold curv
  have h1 : exp (c * b) = exp (c * a) * exp (c * (b - a)) := by rw [← exp_add]; congr 1; ring
  have h2 := add_one_le_exp (c * (b - a))
  have h3 : 1 ≤ exp (c * a) := one_le_exp (by positivity)
  have h4 : 0 ≤ c * (b - a) := mul_nonneg hc.le (by linarith)
  have h5 : c * (b - a) ≤ exp (c * b) - exp (c * a) := by
    rw [h1]; nlinarith
  have h6 : (exp (c * b) - 1) / c - (exp (c * a) - 1) / c = (exp (c * b) - exp (c * a)) / c := by ring
  have h7 : b - a ≤ (exp (c * b) - exp (c * a)) / c := by
    rw [le_div_iff₀ hc]; linarith
  linarith

theorem curv_nonneg {c a : ℝ} (hc : 0 < c) (ha : 0 ≤ a) : 0 ≤ curv c a := by
  have := curv_mono hc le_rfl ha
  simpa [curv] using this

/-- `δ - (1 - e^{-cδ})/c ≤ curv c a` whenever `|δ| ≤ a`. -/
theorem step_err {c a δ : ℝ} (hc : 0 < c) (hδ : |δ| ≤ a) : δ - (1 - exp (-(c * δ))) / c ≤ curv c a := by
  have ha : 0 ≤ a := (abs_nonneg δ).trans hδ
  rcases le_total δ 0 with h | h
  · have := curv_mono hc (a := -δ) (b := a) (by linarith) (by rw [abs_of_nonpos h] at hδ; exact hδ)
    refine le_trans (le_of_eq ?_) this
    unfold curv
    rw [show c * -δ = -(c * δ) by ring]
    ring
  · have := curv_mono hc (b := a) h (by rw [abs_of_nonneg h] at hδ; exact hδ)
    refine le_trans ?_ this
    unfold curv
    have hx : 0 ≤ c * δ := by positivity
    -- sinh x ≥ x
    have hsinh := Real.self_le_sinh_iff.2 hx
    rw [Real.sinh_eq] at hsinh
    have h2 : (1 - exp (-(c * δ))) / c + (exp (c * δ) - 1) / c = (exp (c * δ) - exp (-(c * δ))) / c := by
      ring
    have h3 : 2 * δ ≤ (exp (c * δ) - exp (-(c * δ))) / c := by
      rw [le_div_iff₀ hc]; linarith
    linarith

theorem Phi_step {γ N δ a : ℝ} (h0 : 0 < γ) (h1 : γ ≤ 1 / 2) (hδ : |δ| ≤ a) :
    mu γ N * δ ≤ Phi γ (N + δ) - Phi γ N + mu γ N * curv (rate γ) a := by
  have hc := rate_pos h0 h1
  have ha : 0 ≤ a := (abs_nonneg δ).trans hδ
  rw [mu_eq (by linarith)]
  unfold Phi
  set c := rate γ with hcdef
  by_cases hN : N ≤ 0
  · rw [if_pos hN, if_pos hN]
    by_cases hM : N + δ ≤ 0
    · rw [if_pos hM]
      have := curv_nonneg hc ha
      linarith
    · rw [if_neg hM]
      have hv : |N + δ| ≤ a := by
        rw [abs_of_pos (by linarith)]
        have := (abs_le.1 hδ).2
        linarith
      have := step_err hc hv
      linarith
  · rw [if_neg hN, if_neg hN]
    have hNp : 0 < N := not_le.1 hN
    have hE := exp_pos (-(c * N))
    by_cases hM : N + δ ≤ 0
    · rw [if_pos hM]
      have hb := curv_mono hc (a := -δ) (b := a) (by linarith)
        (by rw [abs_of_nonpos (by linarith)] at hδ; exact hδ)
      have h2 := add_one_le_exp (c * (-δ - N))
      have h3 : exp (-(c * N)) * exp (c * (-δ)) = exp (c * (-δ - N)) := by
        rw [← exp_add]; congr 1; ring
      have h4 := mul_le_mul_of_nonneg_left hb hE.le
      have h5 : exp (-(c * N)) * curv c (-δ) =
          (exp (c * (-δ - N)) - exp (-(c * N))) / c + exp (-(c * N)) * δ := by
        unfold curv
        rw [← h3]; ring
      have h6 : -δ - N ≤ (exp (c * (-δ - N)) - 1) / c := by
        rw [le_div_iff₀ hc]; linarith
      have h7 : (exp (c * (-δ - N)) - exp (-(c * N))) / c =
          (exp (c * (-δ - N)) - 1) / c + (1 - exp (-(c * N))) / c := by ring
      linarith
    · rw [if_neg hM]
      have he := step_err hc hδ
      have h3 : exp (-(c * (N + δ))) = exp (-(c * N)) * exp (-(c * δ)) := by
        rw [← exp_add]; congr 1; ring
      rw [h3]
      have h4 := mul_le_mul_of_nonneg_left he hE.le
      have h5 : (1 - exp (-(c * N)) * exp (-(c * δ))) / c - (1 - exp (-(c * N))) / c =
          exp (-(c * N)) * ((1 - exp (-(c * δ))) / c) := by ring
      rw [h5]
      nlinarith

theorem Phi_lt {γ N : ℝ} (h0 : 0 < γ) (h1 : γ ≤ 1 / 2) : Phi γ N < 1 / rate γ := by
  have hc := rate_pos h0 h1
  unfold Phi
  split
  · have : 0 < 1 / rate γ := by positivity
    linarith
  · apply div_lt_div_of_pos_right _ hc
    linarith [exp_pos (-(rate γ * N))]

theorem exp_neg_rate {γ : ℝ} (h1 : γ < 1) : exp (-(rate γ)) = √(1 - γ) := by
  unfold rate
  rw [show -(-log (1 - γ) / 2) = log (1 - γ) / 2 by ring, ← log_sqrt (by linarith),
    exp_log (sqrt_pos.2 (by linarith))]

theorem Phi_one {γ : ℝ} (h1 : γ < 1) : Phi γ 1 = (1 - √(1 - γ)) / rate γ := by
  unfold Phi
  rw [if_neg (by norm_num), mul_one, exp_neg_rate h1]

/-- The gain per unit of weight in a round. -/
noncomputable def gain (γ : ℝ) : ℝ := 2 * γ - γ / (2 + γ) - curv (rate γ) (1 + γ / (2 + γ))

theorem gain_ge {γ : ℝ} (h0 : 0 < γ) (h1 : γ ≤ 1 / 2) : γ * (1 - γ / 2) ≤ gain γ := by
  unfold gain
  obtain ⟨r1, r2⟩ := rate_bounds h0 h1
  have hc := rate_pos h0 h1
  set c := rate γ with hcdef
  set θ := γ / (2 + γ) with hθ
  have hθ1 : θ ≤ γ / 2 := by
    rw [hθ, div_le_div_iff₀ (by linarith) (by norm_num)]; nlinarith
  have hθ2 : θ ≤ γ / 2 - γ ^ 2 / 5 := by
    rw [hθ, div_le_iff₀ (by linarith)]; nlinarith [mul_pos h0 h0]
  have hθ0 : 0 ≤ θ := by positivity
  set x := c * (1 + θ) with hx
  have ha : 1 + θ ≤ 1 + γ / 2 := by linarith
  have hx0 : 0 ≤ x := by positivity
  have hc2 : c ≤ 3 / 8 := by nlinarith
  have hx1 : x ≤ 1 := by nlinarith
  have hb := Real.exp_bound' hx0 hx1 (n := 3) (by norm_num)
  have hexp : exp x ≤ 1 + x + x ^ 2 / 2 + x ^ 3 / 4 := by
    simp only [Finset.sum_range_succ, Finset.sum_range_zero, Nat.factorial] at hb
    norm_num at hb
    have : 0 ≤ x ^ 3 := by positivity
    linarith
  have hE : curv c (1 + θ) ≤ c * (1 + θ) ^ 2 / 2 * (1 + x / 2) := by
    unfold curv
    rw [← hx]
    have h2 : (exp x - 1) / c ≤ (x + x ^ 2 / 2 + x ^ 3 / 4) / c := by
      apply div_le_div_of_nonneg_right _ hc.le; linarith
    have h3 : (x + x ^ 2 / 2 + x ^ 3 / 4) / c = (1 + θ) + c * (1 + θ) ^ 2 / 2 * (1 + x / 2) := by
      rw [hx]; field_simp; ring
    linarith
  -- bound everything by polynomials in γ
  have ha2 : (1 + θ) ^ 2 ≤ 1 + 5 / 4 * γ := by nlinarith
  have hxg : x ≤ 15 / 32 * (1 + 0) := by
    have : x ≤ 3 / 8 * (5 / 4) := by
      rw [hx]; apply mul_le_mul hc2 (by linarith) (by positivity) (by norm_num)
    linarith
  have hxg2 : x ≤ 15 / 16 * γ := by
    have : c ≤ 3 / 4 * γ := by nlinarith
    have h2 : x ≤ 3 / 4 * γ * (5 / 4) := by
      rw [hx]; apply mul_le_mul this (by linarith) (by positivity) (by positivity)
    linarith
  have h5 : c * (1 + θ) ^ 2 ≤ (γ + γ ^ 2) / 2 * (1 + 5 / 4 * γ) :=
    mul_le_mul r2 ha2 (by positivity) (by positivity)
  have h6 : c * (1 + θ) ^ 2 / 2 * (1 + x / 2) ≤
      (γ + γ ^ 2) / 2 * (1 + 5 / 4 * γ) / 2 * (1 + 15 / 32 * γ) := by
    apply mul_le_mul (by linarith) (by linarith) (by positivity) (by positivity)
  have h7 : (γ + γ ^ 2) / 2 * (1 + 5 / 4 * γ) / 2 * (1 + 15 / 32 * γ) ≤ γ / 2 + γ ^ 2 * (7 / 10) := by
    have : (1 + γ) / 4 * (1 + 5 / 4 * γ) * (1 + 15 / 32 * γ) ≤ 1 / 2 + γ * (7 / 10) := by
      have h8 : (1 + 5 / 4 * γ) * (1 + 15 / 32 * γ) ≤ 2 + 1 / 100 := by nlinarith
      nlinarith
    nlinarith
  nlinarith

theorem mu_pos {γ : ℝ} (h1 : γ < 1) (N : ℝ) : 0 < mu γ N := by
  rw [mu_eq h1]; split
  · exact one_pos
  · exact exp_pos _

theorem mu_le_one {γ : ℝ} (h0 : 0 ≤ γ) (h1 : γ < 1) (N : ℝ) : mu γ N ≤ 1 := by
  unfold mu; split
  · exact le_rfl
  · rename_i h
    exact rpow_le_one (by linarith) (by linarith) (by linarith)

theorem mu_ge {γ N : ℝ} (h0 : 0 ≤ γ) (h1 : γ < 1) (hN : N ≤ 1) : √(1 - γ) ≤ mu γ N := by
  unfold mu; split
  · rw [sqrt_le_one]; linarith
  · rw [sqrt_eq_rpow]
    apply rpow_le_rpow_of_exponent_ge (by linarith) (by linarith)
    linarith

theorem boost_cases [Classifier H X ℝ] {S : Examples X ℝ} {s : SmoothBoost H} {wl : WeakLearner ℝ H}
    {it : Nat} {M N : X × ℝ → ℝ} (hm : s.m = S.map M) (hn : s.n = S.map N) :
    let d := S.map fun e => M e / (S.map M).sum
    let N' := fun e : X × ℝ => N e + e.2 * conf (wl it d) e.1 - s.theta
    boost S s wl it =
      if s.maxIter < it then .ok ⟨s, .brk s.maxIter, []⟩
      else if (S.map M).sum < (s.nSample : ℝ) * s.kappa then
        if it = 0 then .error .arith
        else .ok ⟨{ s with current := it, terminated := it - 1 }, .brk it, []⟩
      else .ok ⟨{ s with current := it, hypotheses := s.hypotheses ++ [wl it d], n := S.map N',
                         m := S.map fun e => mu s.gamma (N' e) }, .cont, [d]⟩ := by
  intro d N'
  unfold boost
  split
  · rfl
  · simp only [hm, hn]
    split
    · rfl
    · simp only [margins_def, List.map_map, updateZip_map_map]
      rfl

theorem boost_cont [Classifier H X ℝ] {S : Examples X ℝ} {s : SmoothBoost H} {wl : WeakLearner ℝ H}
    {it : Nat} {M N : X × ℝ → ℝ} (hm : s.m = S.map M) (hn : s.n = S.map N) {out}
    (hb : boost S s wl it = .ok out) (hf : out.flow = .cont) :
    let d := S.map fun e => M e / (S.map M).sum
    let N' := fun e : X × ℝ => N e + e.2 * conf (wl it d) e.1 - s.theta
    it ≤ s.maxIter ∧ ¬ (S.map M).sum < (s.nSample : ℝ) * s.kappa ∧
    out = ⟨{ s with current := it, hypotheses := s.hypotheses ++ [wl it d], n := S.map N',
                    m := S.map fun e => mu s.gamma (N' e) }, .cont, [d]⟩ := by
  intro d N'
  have hbc := boost_cases (wl := wl) (it := it) hm hn
  simp only [] at hbc
  rw [hbc] at hb
  by_cases h1 : s.maxIter < it
  · rw [if_pos h1, Except.ok.injEq] at hb; subst hb; simp at hf
  rw [if_neg h1] at hb
  by_cases h2 : (S.map M).sum < (s.nSample : ℝ) * s.kappa
  · rw [if_pos h2] at hb
    by_cases h3 : it = 0
    · rw [if_pos h3] at hb; simp at hb
    · rw [if_neg h3, Except.ok.injEq] at hb; subst hb; simp at hf
  rw [if_neg h2, Except.ok.injEq] at hb
  exact ⟨by omega, h2, hb.symm⟩

/-- The accumulated margin of an example after the hypotheses `hs`. -/
noncomputable def score [Classifier H X ℝ] (θ : ℝ) (hs : List H) (e : X × ℝ) : ℝ :=
  1 + (e.2 * (hs.map fun h => conf h e.1).sum - hs.length * θ)

theorem score_append [Classifier H X ℝ] (θ : ℝ) (hs : List H) (h : H) (e : X × ℝ) :
    score θ (hs ++ [h]) e = score θ hs e + e.2 * conf h e.1 - θ := by
  simp only [score, List.map_append, List.map_cons, List.map_nil, List.sum_append, List.sum_cons,
    List.sum_nil, List.length_append, List.length_cons, List.length_nil]
  push_cast; ring

structure Inv [Classifier H X ℝ] (S : Examples X ℝ) (s₀ : SmoothBoost H) (n : Nat)
    (qs : List (List ℝ)) (s : SmoothBoost H) : Prop where
  ne : S ≠ []
  kappa : s.kappa = s₀.kappa
  gamma : s.gamma = s₀.gamma
  theta : s.theta = s₀.gamma / (2 + s₀.gamma)
  k01 : 0 < s₀.kappa ∧ s₀.kappa < 1
  g1 : s₀.gamma < 1 / 2
  nSample : s.nSample = S.length
  max : s.maxIter = maxLoop s₀
  term : s.terminated = maxLoop s₀
  hlen : s.hypotheses.length = n
  qlen : qs.length = n
  nn : s.n = S.map (score s.theta s.hypotheses)
  mm : s.m = S.map (fun e => if n = 0 then 1 else mu s.gamma (score s.theta s.hypotheses e))
  le : n ≤ s.maxIter
  q : 0 ≤ s₀.gamma → ∀ q ∈ qs, q.length = S.length ∧ Spec.IsPosProb q ∧
    ∀ p ∈ q, p ≤ 1 / (s₀.kappa * S.length)

theorem weights_ok (S : Examples X ℝ) (hne : S ≠ []) (M : X × ℝ → ℝ) (κ : ℝ) (hκ : 0 < κ)
    (hM : ∀ e ∈ S, 0 < M e ∧ M e ≤ 1) (hsum : ¬ (S.map M).sum < (S.length : ℝ) * κ) :
    (S.map fun e => M e / (S.map M).sum).length = S.length ∧
      Spec.IsPosProb (S.map fun e => M e / (S.map M).sum) ∧
      ∀ p ∈ S.map fun e => M e / (S.map M).sum, p ≤ 1 / (κ * S.length) := by
  have hpos : 0 < (S.map M).sum := sum_map_pos S M hne (fun e he => (hM e he).1)
  have hm : (0 : ℝ) < S.length := by exact_mod_cast List.length_pos_iff.2 hne
  refine ⟨by simp, ⟨?_, ?_⟩, ?_⟩
  · intro p hp
    obtain ⟨e, he, rfl⟩ := List.mem_map.1 hp
    exact div_pos (hM e he).1 hpos
  · rw [sum_map_div]; exact div_self hpos.ne'
  · intro p hp
    obtain ⟨e, he, rfl⟩ := List.mem_map.1 hp
    exact div_le_div₀ zero_le_one (hM e he).2 (by positivity) (by linarith [not_lt.1 hsum])

theorem inv_of_reachable [Classifier H X ℝ] {S : Examples X ℝ} {s₀ : SmoothBoost H}
    {wl : WeakLearner ℝ H} {n : Nat} {qs : List (List ℝ)} {s : SmoothBoost H}
    (h : (booster S).Reachable wl s₀ n qs s) : Inv S s₀ n qs s := by
  induction h with
  | @start s' hp =>
    simp only [booster, preprocess] at hp
    cases hc : checkBinary S with
    | error e => simp [hc] at hp
    | ok u =>
      have hne := checkBinary_ne_nil (S := S) (by cases u; exact hc)
      simp only [hc, checkPreconditions] at hp
      by_cases hk : ¬ (0 ≤ s₀.kappa ∧ s₀.kappa < 1) ∨ s₀.kappa ≤ 0
      · rw [if_pos hk] at hp; simp at hp
      by_cases hg : ¬ (s₀.gamma / (2 + s₀.gamma) ≤ s₀.gamma ∧ s₀.gamma < 1 / 2)
      · rw [if_neg hk, if_pos hg] at hp; simp at hp
      rw [if_neg hk, if_neg hg] at hp
      simp only [Except.ok.injEq] at hp
      push Not at hk hg
      subst hp
      refine ⟨hne, rfl, rfl, rfl, ⟨hk.2, hk.1.2⟩, hg.2, rfl, rfl, rfl, rfl, rfl, ?_, ?_, Nat.zero_le _, ?_⟩
      · have : score (s₀.gamma / (2 + s₀.gamma)) ([] : List H) = fun _ : X × ℝ => 1 := by
          funext e; simp [score]
        simp [this, List.map_const']
      · simp [List.map_const']
      · simp
  | @step n qs s₁ out hr hb hf ih =>
    obtain ⟨hit, hsum, hout⟩ := boost_cont ih.mm ih.nn hb hf
    subst hout
    refine ⟨ih.ne, ih.kappa, ih.gamma, ih.theta, ih.k01, ih.g1, ih.nSample, ih.max, ih.term, ?_, ?_,
      ?_, ?_, by simp only []; omega, ?_⟩
    · simp [ih.hlen]
    · simp [ih.qlen]
    · simp only []
      apply List.map_congr_left
      intro e _
      rw [score_append]
    · simp only []
      apply List.map_congr_left
      intro e _
      rw [score_append, if_neg (Nat.succ_ne_zero n)]
    · intro hg0 q hq
      rcases List.mem_append.1 hq with h | h
      · exact ih.q hg0 q h
      · simp only [List.mem_singleton] at h
        subst h
        have hg1 := ih.g1
        rw [ih.nSample, ih.kappa] at hsum
        apply weights_ok S ih.ne _ s₀.kappa ih.k01.1 _ hsum
        intro e _
        split
        · exact ⟨one_pos, le_rfl⟩
        · rw [ih.gamma]
          exact ⟨mu_pos (by linarith) _, mu_le_one hg0 (by linarith) _⟩

theorem sum_map_sub' {ι : Type*} (l : List ι) (f g : ι → ℝ) :
    (l.map fun i => f i - g i).sum = (l.map f).sum - (l.map g).sum := by
  induction l with
  | nil => simp
  | cons a l ih => simp only [List.map_cons, List.sum_cons, ih]; ring

/-- One round increases the total potential by at least the gain times the total weight. -/
theorem potential_step (S : Examples X ℝ) (hne : S ≠ []) {γ : ℝ} (h0 : 0 < γ)
    (h1 : γ < 1 / 2) (N : X × ℝ → ℝ) (g : X → ℝ)
    (hbd : ∀ e ∈ S, |e.2 * g e.1| ≤ 1)
    (hedge : 2 * γ ≤ Spec.edge S (S.map fun e => mu γ (N e) / (S.map fun e => mu γ (N e)).sum) g) :
    gain γ * (S.map fun e => mu γ (N e)).sum ≤
      (S.map fun e => Phi γ (N e + e.2 * g e.1 - γ / (2 + γ))).sum - (S.map fun e => Phi γ (N e)).sum := by
  have hpos : 0 < (S.map fun e => mu γ (N e)).sum :=
    sum_map_pos S _ hne (fun e he => mu_pos (by linarith) _)
  rw [specEdge_map] at hedge
  have hE : (S.map fun e => mu γ (N e) / (S.map fun e => mu γ (N e)).sum * (e.2 * g e.1)).sum =
      (S.map fun e => mu γ (N e) * (e.2 * g e.1)).sum / (S.map fun e => mu γ (N e)).sum := by
    rw [← sum_map_div]; congr 1; apply List.map_congr_left; intro e _; ring
  rw [hE, le_div_iff₀ hpos] at hedge
  set θ := γ / (2 + γ) with hθ
  have hθ0 : 0 ≤ θ := by positivity
  have hstep : (S.map fun e => mu γ (N e) * (e.2 * g e.1) - mu γ (N e) * (θ + curv (rate γ) (1 + θ))).sum ≤
      (S.map fun e => Phi γ (N e + e.2 * g e.1 - θ) - Phi γ (N e)).sum := by
    apply sum_map_le
    intro e he
    have hd : |e.2 * g e.1 - θ| ≤ 1 + θ := by
      have := abs_le.1 (hbd e he)
      rw [abs_le]; constructor <;> linarith
    have := Phi_step (N := N e) h0 h1.le hd
    rw [← add_sub_assoc] at this
    linarith
  rw [sum_map_sub', sum_map_sub'] at hstep
  have hmul : (S.map fun e => mu γ (N e) * (θ + curv (rate γ) (1 + θ))).sum =
      (θ + curv (rate γ) (1 + θ)) * (S.map fun e => mu γ (N e)).sum := by
    rw [← sum_map_mul_left']; congr 1; apply List.map_congr_left; intro e _; ring
  rw [hmul] at hstep
  unfold gain
  rw [← hθ]
  linarith

/-- The total potential grows linearly in the number of rounds. -/
theorem potential [Classifier H X ℝ] {S : Examples X ℝ} {s₀ : SmoothBoost H}
    {wl : WeakLearner ℝ H} {n : Nat} {qs : List (List ℝ)} {s : SmoothBoost H}
    (h0 : 0 < s₀.gamma)
    (hbd : ∀ k d, ∀ e ∈ S, |e.2 * conf (wl k d) e.1| ≤ 1)
    (hedge : ∀ k d, d.length = S.length → Spec.IsPosProb d →
      (∀ p ∈ d, p ≤ 1 / (s₀.kappa * S.length)) → 2 * s₀.gamma ≤ Spec.edge S d (conf (wl k d)))
    (h : (booster S).Reachable wl s₀ n qs s) (hn : 0 < n) :
    gain s₀.gamma * ((S.length : ℝ) * (s₀.kappa * ((n : ℝ) - 1) + √(1 - s₀.gamma))) ≤
      (S.map fun e => Phi s₀.gamma (score s.theta s.hypotheses e)).sum - S.length * Phi s₀.gamma 1 := by
  induction h with
  | start => omega
  | @step n qs s₁ out hr hb hf ih =>
    have hi := inv_of_reachable hr
    have hg1 := hi.g1
    obtain ⟨hit, hsum, hout⟩ := boost_cont hi.mm hi.nn hb hf
    rw [hi.nSample, hi.kappa] at hsum
    have hq := (inv_of_reachable (Booster.Reachable.step hr hb hf)).q h0.le
    subst hout
    simp only [] at hq ⊢
    have hgain : 0 < gain s₀.gamma := by
      have := gain_ge h0 hg1.le
      have : 0 < s₀.gamma * (1 - s₀.gamma / 2) := by apply mul_pos h0; linarith
      linarith
    set M : X × ℝ → ℝ := fun e => if n = 0 then 1 else mu s₁.gamma (score s₁.theta s₁.hypotheses e) with hM
    set d := S.map fun e => M e / (S.map M).sum with hd
    have hqd := hq d (by simp)
    have hE := hedge (n + 1) d hqd.1 hqd.2.1 hqd.2.2
    -- the weights are those of `mu` at the current scores, also in the first round
    have hdd : d = S.map fun e => mu s₀.gamma (score s₁.theta s₁.hypotheses e) /
        (S.map fun e => mu s₀.gamma (score s₁.theta s₁.hypotheses e)).sum := by
      rcases Nat.eq_zero_or_pos n with h | h
      · have hh : s₁.hypotheses = [] := List.length_eq_zero_iff.1 (by rw [hi.hlen]; exact h)
        have hsc : ∀ e : X × ℝ, score s₁.theta s₁.hypotheses e = 1 := by
          intro e; rw [hh]; simp [score]
        have hp := mu_pos (γ := s₀.gamma) (by linarith) 1
        simp only [hd, hM, hsc, if_pos h, sum_map_const']
        apply List.map_congr_left
        intro e _
        have hm : (0 : ℝ) < S.length := by exact_mod_cast List.length_pos_iff.2 hi.ne
        field_simp
      · simp only [hd, hM, if_neg h.ne', hi.gamma]
    have hE' := hE
    conv at hE' => rhs; arg 2; rw [hdd]
    have hstep := potential_step S hi.ne h0 hg1 (score s₁.theta s₁.hypotheses) (conf (wl (n + 1) d))
      (hbd _ _) hE'
    have hnew : (S.map fun e => Phi s₀.gamma (score s₁.theta (s₁.hypotheses ++ [wl (n + 1) d]) e)) =
        S.map fun e => Phi s₀.gamma (score s₁.theta s₁.hypotheses e + e.2 * conf (wl (n + 1) d) e.1 -
          s₀.gamma / (2 + s₀.gamma)) := by
      apply List.map_congr_left; intro e _; rw [score_append, ← hi.theta]
    rw [hnew]
    rcases Nat.eq_zero_or_pos n with h | h
    · have hh : s₁.hypotheses = [] := List.length_eq_zero_iff.1 (by rw [hi.hlen]; exact h)
      have hsc : ∀ e : X × ℝ, score s₁.theta s₁.hypotheses e = 1 := by
        intro e; rw [hh]; simp [score]
      simp only [hsc, sum_map_const'] at hstep ⊢
      have hmu : mu s₀.gamma 1 = √(1 - s₀.gamma) := by
        rw [mu_eq (by linarith), if_neg (by norm_num), mul_one, exp_neg_rate (by linarith)]
      rw [hmu] at hstep
      have hn0 : (n : ℝ) = 0 := by exact_mod_cast h
      push_cast
      rw [hn0]
      simp only [zero_add, sub_self, mul_zero]
      exact hstep
    · have ih' := ih h
      have hs' : (S.length : ℝ) * s₀.kappa ≤
          (S.map fun e => mu s₀.gamma (score s₁.theta s₁.hypotheses e)).sum := by
        have := not_lt.1 hsum
        simpa only [hM, if_neg h.ne', hi.gamma] using this
      have hg2 := mul_le_mul_of_nonneg_left hs' hgain.le
      push_cast
      have : gain s₀.gamma * ((S.length : ℝ) * (s₀.kappa * ((n : ℝ) + 1 - 1) + √(1 - s₀.gamma))) =
        gain s₀.gamma * ((S.length : ℝ) * (s₀.kappa * ((n : ℝ) - 1) + √(1 - s₀.gamma))) +
          gain s₀.gamma * ((S.length : ℝ) * s₀.kappa) := by ring
      rw [this]
      linarith

/-- The number of rounds stays strictly below `2/(κγ²√(1-γ))`. -/
theorem rounds_lt [Classifier H X ℝ] {S : Examples X ℝ} {s₀ : SmoothBoost H}
    {wl : WeakLearner ℝ H} {n : Nat} {qs : List (List ℝ)} {s : SmoothBoost H}
    (h0 : 0 < s₀.gamma)
    (hbd : ∀ k d, ∀ e ∈ S, |e.2 * conf (wl k d) e.1| ≤ 1)
    (hedge : ∀ k d, d.length = S.length → Spec.IsPosProb d →
      (∀ p ∈ d, p ≤ 1 / (s₀.kappa * S.length)) → 2 * s₀.gamma ≤ Spec.edge S d (conf (wl k d)))
    (h : (booster S).Reachable wl s₀ n qs s) :
    (n : ℝ) < 2 / (s₀.kappa * s₀.gamma ^ 2 * √(1 - s₀.gamma)) := by
  have hi := inv_of_reachable h
  have hg1 := hi.g1
  obtain ⟨hk0, hk1⟩ := hi.k01
  set γ := s₀.gamma with hγ
  set κ := s₀.kappa with hκ
  have hs2 : √(1 - γ) ^ 2 = 1 - γ := sq_sqrt (by linarith)
  have hs0 : 0 < √(1 - γ) := sqrt_pos.2 (by linarith)
  have hs1 : √(1 - γ) ≤ 1 := by rw [sqrt_le_one]; linarith
  set σ := √(1 - γ) with hσ
  rcases Nat.eq_zero_or_pos n with hn | hn
  · rw [hn]; push_cast; positivity
  have hp := potential h0 hbd hedge h hn
  have hm : (0 : ℝ) < S.length := by exact_mod_cast List.length_pos_iff.2 hi.ne
  have hub : (S.map fun e => Phi γ (score s.theta s.hypotheses e)).sum ≤ S.length * (1 / rate γ) := by
    rw [← sum_map_const']
    apply sum_map_le
    intro e _
    exact (Phi_lt h0 hg1.le).le
  rw [Phi_one (by linarith)] at hp
  have hc := rate_pos h0 hg1.le
  have hcge := (rate_bounds h0 hg1.le).1
  have h2 : gain γ * (κ * ((n : ℝ) - 1) + σ) ≤ σ / rate γ := by
    have : (S.length : ℝ) * (gain γ * (κ * ((n : ℝ) - 1) + σ)) ≤ S.length * (σ / rate γ) := by
      have e1 : (S.length : ℝ) * (1 / rate γ) - S.length * ((1 - σ) / rate γ) = S.length * (σ / rate γ) := by
        ring
      have e2 : (S.length : ℝ) * (gain γ * (κ * ((n : ℝ) - 1) + σ)) =
        gain γ * ((S.length : ℝ) * (κ * ((n : ℝ) - 1) + σ)) := by ring
      rw [e2]
      linarith
    exact le_of_mul_le_mul_left this hm
  have hG := gain_ge h0 hg1.le
  have hn1 : (1 : ℝ) ≤ n := by exact_mod_cast hn
  have hA : 0 ≤ κ * ((n : ℝ) - 1) + σ := by
    have : 0 ≤ κ * ((n : ℝ) - 1) := mul_nonneg hk0.le (by linarith)
    linarith
  -- γ²(1-γ/2)(κ(n-1)+σ) ≤ 2σ
  have h3 : γ ^ 2 * (1 - γ / 2) * (κ * ((n : ℝ) - 1) + σ) ≤ 2 * σ := by
    have h4 : γ * (1 - γ / 2) * (κ * ((n : ℝ) - 1) + σ) ≤ σ / rate γ :=
      (mul_le_mul_of_nonneg_right hG hA).trans h2
    rw [le_div_iff₀ hc] at h4
    have h5 : 0 ≤ γ * (1 - γ / 2) * (κ * ((n : ℝ) - 1) + σ) := by
      apply mul_nonneg _ hA; apply mul_nonneg h0.le; linarith
    nlinarith
  rw [lt_div_iff₀ (by positivity)]
  -- multiply by σ and use σ² = 1 - γ
  have h6 : γ ^ 2 * (1 - γ / 2) * (κ * ((n : ℝ) - 1) + σ) * σ ≤ 2 * (1 - γ) := by
    have := mul_le_mul_of_nonneg_right h3 hs0.le
    nlinarith
  have h7 : 0 < 1 - γ / 2 := by linarith
  have h8 : γ ^ 2 * (κ * ((n : ℝ) - 1) + σ) * σ ≤ 2 - γ := by
    by_contra hcon
    push Not at hcon
    have := mul_lt_mul_of_pos_right hcon h7
    nlinarith
  have h9 : γ ^ 2 * σ * (κ - σ) < γ := by
    have : κ - σ < 1 := by linarith
    have h10 : γ ^ 2 * σ * (κ - σ) ≤ γ ^ 2 * σ := by
      have : 0 ≤ γ ^ 2 * σ := by positivity
      nlinarith
    have h11 : γ ^ 2 * σ ≤ γ ^ 2 := by nlinarith [sq_nonneg γ]
    nlinarith
  nlinarith

end SmoothBoost

end Miniboosts
