import Verif.Lemmas.FloatSmoothBound
import Verif.Spec.Float

/-! The number of rounds of SmoothBoost in `f64`. -/

namespace Miniboosts

open F64

variable {H X : Type*} [Classifier H X F64]

namespace SmoothBoostF

open SmoothBoost (mu mu_eq mu_pos mu_le_one Phi rate gain gain_ge rate_bounds rate_pos Phi_lt Phi_one exp_neg_rate)

theorem exactEdge_map (S : Examples X ℝ) (w : X × ℝ → ℝ) (h : H) :
    exactEdge S (S.map fun e => fin (w e)) h = (S.map fun e => w e * (e.2 * (conf h e.1).val)).sum := by
  unfold exactEdge
  congr 1
  induction S with
  | nil => rfl
  | cons e S ih =>
    rw [List.map_cons, List.zipWith_cons_cons, ih, List.map_cons]; rfl

/-- What a moderate limit says about the parameters. -/
theorem params_of_denom {κ g : ℝ} (hκ0 : 0 ≤ κ) (hκ1 : κ < 1) (hg0 : 0 ≤ g) (hg1 : g < 1 / 2) (hd : Rep g) (hD : 1 / 10 ^ 6 ≤ denom κ g) :
    1 / 10 ^ 6 ≤ κ ∧ 1 / 10 ^ 3 ≤ g ∧ 99 / 10 ^ 5 ≤ 1 - base g ∧ 1 - base g ≤ 1 / 2 ∧ |1 - base g - g| ≤ 2 * u ∧
      |thetaR g - (1 - base g) / (2 + (1 - base g))| ≤ 6 * u ∧ denom κ g ≤ denom κ (1 - base g) + 4 * u := by
  have hu := u_small
  have hu0 := u_pos
  obtain ⟨b1, b2, b3⟩ := base_bounds hg0 hg1
  have hs0 := Real.sqrt_nonneg (1 - g)
  have hs1 : √(1 - g) ≤ 1 := Real.sqrt_le_one.mpr (by linarith)
  have hgg : g ^ 2 ≤ 1 := by nlinarith
  have hk : 1 / 10 ^ 6 ≤ κ := by
    refine hD.trans ?_
    unfold denom
    have h1 : κ * g ^ 2 ≤ κ := by nlinarith
    have h2 : κ * g ^ 2 * √(1 - g) ≤ κ * g ^ 2 * 1 := mul_le_mul_of_nonneg_left hs1 (by positivity)
    linarith
  have hg3 : 1 / 10 ^ 3 ≤ g := by
    have h1 : 1 / 10 ^ 6 ≤ g ^ 2 := by
      refine hD.trans ?_
      unfold denom
      have h2 : κ * g ^ 2 * √(1 - g) ≤ κ * g ^ 2 * 1 := mul_le_mul_of_nonneg_left hs1 (by positivity)
      nlinarith [sq_nonneg g]
    by_contra hcon
    push Not at hcon
    norm_num at h1 hcon
    nlinarith
  have hb : |1 - base g - g| ≤ 2 * u := by
    rw [show 1 - base g - g = -(base g - (1 - g)) by ring, abs_neg]; exact b3
  have hb' := abs_le.mp hb
  have hp : 99 / 10 ^ 5 ≤ 1 - base g := by norm_num at hu hg3 ⊢; linarith [hb'.1]
  have hp2 : 1 - base g ≤ 1 / 2 := by linarith
  refine ⟨hk, hg3, hp, hp2, hb, ?_, ?_⟩
  · obtain ⟨-, -, -, ht⟩ := thetaOf_fin hg0 hg1 hd
    set p := 1 - base g with hpd
    have h4 : |g / (2 + g) - p / (2 + p)| ≤ 2 * u := by
      rw [div_sub_div _ _ (by linarith) (by linarith), abs_div, abs_of_pos (show 0 < (2 + g) * (2 + p) by nlinarith), div_le_iff₀ (by nlinarith)]
      rw [show g * (2 + p) - (2 + g) * p = -(2 * (p - g)) by ring, abs_neg, abs_mul, abs_of_pos (show (0 : ℝ) < 2 by norm_num)]
      have h8 : 4 ≤ (2 + g) * (2 + p) := by nlinarith
      nlinarith
    have h9 := abs_add_le (thetaR g - g / (2 + g)) (g / (2 + g) - p / (2 + p))
    rw [sub_add_sub_cancel] at h9
    linarith
  · set p := 1 - base g with hpd
    unfold denom
    have h2 : √(1 / 4) ≤ √(1 - p) := Real.sqrt_le_sqrt (by linarith)
    have h4 : √(1 / 4 : ℝ) = 1 / 2 := by rw [show (1 / 4 : ℝ) = (1 / 2) ^ 2 by norm_num, Real.sqrt_sq (by norm_num)]
    rw [h4] at h2
    have hq := Real.sq_sqrt (show 0 ≤ 1 - p by linarith)
    have h5 : √(1 - g) ≤ √(1 - p) + 2 * u := by
      rw [Real.sqrt_le_left (by linarith)]
      nlinarith [hb'.1, hb'.2]
    have h6 : g ^ 2 ≤ p ^ 2 + 2 * u := by nlinarith [hb'.1, hb'.2]
    have hp1 : √(1 - p) ≤ 1 := Real.sqrt_le_one.mpr (by linarith)
    have h7 : g ^ 2 * √(1 - g) ≤ p ^ 2 * √(1 - p) + 4 * u := by
      have a1 : g ^ 2 * √(1 - g) ≤ g ^ 2 * (√(1 - p) + 2 * u) := mul_le_mul_of_nonneg_left h5 (sq_nonneg g)
      have a2 : g ^ 2 * √(1 - p) ≤ (p ^ 2 + 2 * u) * √(1 - p) := mul_le_mul_of_nonneg_right h6 (by linarith)
      nlinarith
    have h8 : κ * (g ^ 2 * √(1 - g)) ≤ κ * (p ^ 2 * √(1 - p) + 4 * u) := mul_le_mul_of_nonneg_left h7 hκ0
    nlinarith

/-- In the rounds after the first the weights are those of the analysis, up to rounding. -/
theorem weights_close {A : Type*} (S : List A) (hne : S ≠ []) {κ : ℝ} (hκ : 1 / 10 ^ 6 ≤ κ) (M μ : A → ℝ) (hμ : ∀ e ∈ S, 0 ≤ μ e)
    (hM : ∀ e ∈ S, |M e - μ e| ≤ 12 * u * μ e + 2 * eta) (hs : (1 - 1 / 10 ^ 8) * (κ * S.length) ≤ (S.map M).sum) :
    (1 - 2 / 10 ^ 8) * (κ * S.length) ≤ (S.map μ).sum ∧ (S.map fun e => |M e - μ e|).sum ≤ 1 / 10 ^ 12 * (S.map μ).sum := by
  have hu := u_small
  have hu0 := u_pos
  have het := eta_tiny
  have het0 := eta_pos
  have hm1 : (1 : ℝ) ≤ S.length := by exact_mod_cast List.length_pos_iff.mpr hne
  set B := (S.map μ).sum with hB
  have hB0 : 0 ≤ B := List.sum_nonneg (by simp only [List.mem_map]; rintro _ ⟨e, he, rfl⟩; exact hμ e he)
  have h1 : (S.map fun e => |M e - μ e|).sum ≤ 12 * u * B + 2 * eta * S.length := by
    have h2 := List.sum_le_sum (l := S) (f := fun e => |M e - μ e|) (g := fun e => 12 * u * μ e + 2 * eta) hM
    rw [List.sum_map_add, List.sum_map_mul_left] at h2
    simp only [List.map_const', List.sum_replicate, nsmul_eq_mul] at h2
    linarith
  have h3 : |(S.map M).sum - B| ≤ (S.map fun e => |M e - μ e|).sum := sum_close S M μ _ fun e _ => le_rfl
  have h4 := (abs_le.mp h3).2
  have h5 : 12 * u * B ≤ 12 * (1 / 9000000000000000) * B := by gcongr
  have h6 : 2 * eta * S.length ≤ 2 * (1 / 10 ^ 60) * S.length := by gcongr
  have h7 : 1 / 10 ^ 6 * S.length ≤ κ * S.length := by gcongr
  have h8 : (1 - 2 / 10 ^ 8) * (κ * S.length) ≤ B := by
    norm_num at h5 h6 h7 hs ⊢
    linarith only [h1, h4, h5, h6, h7, hs, hB0, hm1]
  refine ⟨h8, ?_⟩
  norm_num at h5 h6 h7 h8 ⊢
  linarith only [h1, h5, h6, h7, h8, hB0, hm1]

/-- The potential of a state. -/
noncomputable def pot (p : ℝ) (s : SmoothBoostF H) : ℝ := (s.n.map fun z => Phi p z.val).sum

omit [Classifier H X F64] in
theorem pot_eq {p : ℝ} {s : SmoothBoostF H} {S : Examples X ℝ} {N : X × ℝ → ℝ} (h : s.n = S.map fun e => fin (N e)) :
    pot p s = (S.map fun e => Phi p (N e)).sum := by
  unfold pot; rw [h, List.map_map]; rfl

theorem potential (P : Powm) {S : Examples X ℝ} (hpm : Spec.PmLabels S) (hn : S.length ≤ 10 ^ 5) {s₀ : SmoothBoostF H} {κ g : ℝ}
    (hk : s₀.kappa = fin κ) (hg : s₀.gamma = fin g) (hκ : 1 / 10 ^ 30 ≤ κ) (hκ1 : κ < 1) (hg0 : 0 ≤ g) (hg1 : g < 1 / 2) (hd : Rep g)
    {wl : WeakLearner F64 H} (hwl : AnswersSmooth S κ wl) (hE : ∀ it d, SmoothWeights κ S.length d → 2 * g ≤ exactEdge S d (wl it d))
    (hL : maxLoop s₀ ≤ 10 ^ 6) {n : Nat} {qs : List (List F64)} {s : SmoothBoostF H}
    (h : (booster P S).Reachable wl s₀ n qs s) (h0 : 0 < n) :
    (gain (1 - base g) - 3 / 10 ^ 8) * (S.length * ((1 - 2 / 10 ^ 8) * κ * ((n : ℝ) - 1) + √(1 - (1 - base g)))) ≤
      pot (1 - base g) s - S.length * Phi (1 - base g) 1 := by
  have hu := u_small
  have hu0 := u_pos
  have hκ0 : 0 < κ := lt_of_lt_of_le (by norm_num) hκ
  obtain ⟨-, -, hlim⟩ := limit_fin (H := H) hk hg hκ0.le hκ1 hg0 hg1
  obtain ⟨pk, pg, p1, p2, p3, p4, -⟩ := params_of_denom hκ0.le hκ1 hg0 hg1 hd (hlim hL).1
  set p := 1 - base g with hp
  have hp0 : 0 < p := by linarith
  have hgain : 0 ≤ gain p - 3 / 10 ^ 8 := by
    have := gain_ge hp0 p2
    have h2 : 99 / 10 ^ 5 * (3 / 4) ≤ p * (1 - p / 2) := mul_le_mul p1 (by linarith) (by norm_num) hp0.le
    norm_num at h2 ⊢
    linarith
  have hmu1 : mu p 1 = √(1 - p) := by
    rw [mu_eq (by linarith), if_neg (by norm_num), mul_one, exp_neg_rate (by linarith)]
  induction h with
  | start => omega
  | @step n qs s₁ out hr hb hf ih =>
    have hi := inv_of_reachable P hpm hn hk hg hκ hκ1 hg0 hg1 hd hwl hr
    obtain ⟨M, N, hM, hN, hc⟩ := hi.cells
    have hb' : boost P S s₁ wl (n + 1) = .ok out := hb
    rcases boost_cases P hn hκ hκ1 hg0 hg1 (wl := wl) hi hM hN hc with ⟨-, h⟩ | ⟨-, -, h⟩ | ⟨h1, σ, h2, h3, h4, h5, h6, h⟩
    · rw [h, Except.ok.injEq] at hb'; subst hb'; simp at hf
    · rw [h, Except.ok.injEq] at hb'; subst hb'; simp at hf
    rw [h, Except.ok.injEq] at hb'
    have hh : Answers S (wl (n + 1) (S.map fun e => fin (F64.round (M e / σ)))) := hwl _ _ h5
    have hEd := hE (n + 1) _ h5
    rw [exactEdge_map S (fun e => F64.round (M e / σ))] at hEd
    obtain ⟨M', N', f1, f2, f3, f4⟩ := step_fun P hpm hg0 hg1 hd hi.hlen hi.answers hh hc
    have hn6 : n + 1 ≤ 10 ^ 6 := by have := hi.max; omega
    have hN' : out.state.n = S.map fun e => fin (N' e) := by rw [← hb']; exact f1
    rw [pot_eq hN']
    set hyp := wl (n + 1) (S.map fun e => fin (F64.round (M e / σ))) with hhyp
    clear_value hyp
    clear h hb' hb f1 f2 f3 hN'
    have hm1 : (1 : ℝ) ≤ S.length := by exact_mod_cast List.length_pos_iff.mpr hi.ne
    have hcc : ∀ e ∈ S, |e.2 * (conf hyp e.1).val| ≤ 1 := by
      intro e he
      have hy : |e.2| = 1 := by rcases hpm e he with h | h <;> rw [h] <;> simp
      rw [abs_mul, hy, one_mul]; exact hh.val he
    have hμ : ∀ e ∈ S, 0 ≤ mu p (N e) := fun e _ => (mu_pos (by linarith) _).le
    set B := (S.map fun e => mu p (N e)).sum with hB
    have hB0 : 0 ≤ B := List.sum_nonneg (by simp only [List.mem_map]; rintro _ ⟨e, he, rfl⟩; exact hμ e he)
    -- the edge for the weights of the analysis
    have key : (∃ K : ℝ, 0 < K ∧ (S.map fun e => |M e - K * mu p (N e)|).sum ≤ 1 / 10 ^ 12 * (K * B)) ∧
        (n = 0 → B = S.length * √(1 - p)) ∧ (0 < n → (1 - 2 / 10 ^ 8) * (κ * S.length) ≤ B) := by
      rcases Nat.eq_zero_or_pos n with h | h
      · have hN1 : ∀ e ∈ S, N e = 1 ∧ M e = 1 := fun e he => ⟨((hc e he).first h).2, ((hc e he).first h).1⟩
        have hBe : B = S.length * √(1 - p) := by
          rw [hB, ← hmu1]
          have : (S.map fun e => mu p (N e)) = S.map fun _ => mu p 1 := List.map_congr_left fun e he => by rw [(hN1 e he).1]
          rw [this]; simp
        have hmp := mu_pos (γ := p) (by linarith) 1
        refine ⟨⟨1 / mu p 1, by positivity, ?_⟩, fun _ => hBe, fun h' => by omega⟩
        have : (S.map fun e => |M e - 1 / mu p 1 * mu p (N e)|) = S.map fun _ => (0 : ℝ) := by
          refine List.map_congr_left fun e he => ?_
          rw [(hN1 e he).1, (hN1 e he).2, one_div_mul_cancel hmp.ne', sub_self, abs_zero]
        rw [this]
        simp only [List.map_const', List.sum_replicate, smul_zero]
        positivity
      · obtain ⟨w1, w2⟩ := weights_close S hi.ne pk M (fun e => mu p (N e)) hμ (fun e he => (hc e he).later h) h4
        exact ⟨⟨1, one_pos, by simpa only [one_mul] using w2⟩, fun h' => by omega, fun _ => w1⟩
    obtain ⟨⟨K, hK, hMK⟩, k0, k1⟩ := key
    have hEt := edge_transfer S M (fun e => mu p (N e)) (fun e => F64.round (M e / σ)) (fun e => e.2 * (conf hyp e.1).val) hK hB0 hg0 hg1.le
      h3 h6 hMK hcc hEd
    have hEp : (2 * p - 7 / 10 ^ 9) * B ≤ (S.map fun e => mu p (N e) * (e.2 * (conf hyp e.1).val)).sum := by
      refine le_trans (mul_le_mul_of_nonneg_right ?_ hB0) hEt
      have := (abs_le.mp p3).2
      norm_num at hu ⊢
      linarith
    have hst := potential_step S hp0 p2 (θ := thetaR g) (p4.trans (by norm_num at hu ⊢; linarith)) N N' (fun e => e.2 * (conf hyp e.1).val) hcc
      (f4 hn6) hEp
    rw [← hB] at hst
    push_cast
    rcases Nat.eq_zero_or_pos n with h | h
    · have hN1 : (S.map fun e => Phi p (N e)) = S.map fun _ => Phi p 1 := List.map_congr_left fun e he => by rw [((hc e he).first h).2]
      rw [hN1] at hst
      simp only [List.map_const', List.sum_replicate, nsmul_eq_mul] at hst
      have hn0 : (n : ℝ) = 0 := by exact_mod_cast h
      rw [hn0]
      rw [k0 h] at hst
      simp only [zero_add, sub_self, mul_zero]
      exact hst
    · have ih' := ih h
      rw [pot_eq hN] at ih'
      have hg2 := mul_le_mul_of_nonneg_left (k1 h) hgain
      have e1 : (gain p - 3 / 10 ^ 8) * (S.length * ((1 - 2 / 10 ^ 8) * κ * ((n : ℝ) + 1 - 1) + √(1 - p))) =
          (gain p - 3 / 10 ^ 8) * (S.length * ((1 - 2 / 10 ^ 8) * κ * ((n : ℝ) - 1) + √(1 - p))) +
            (gain p - 3 / 10 ^ 8) * ((1 - 2 / 10 ^ 8) * (κ * S.length)) := by ring
      rw [e1]
      linarith only [ih', hg2, hst]

/-- With a good learner the limit is not reached. -/
theorem rounds_lt (P : Powm) {S : Examples X ℝ} (hpm : Spec.PmLabels S) (hn : S.length ≤ 10 ^ 5) {s₀ : SmoothBoostF H} {κ g : ℝ}
    (hk : s₀.kappa = fin κ) (hg : s₀.gamma = fin g) (hκ : 1 / 10 ^ 30 ≤ κ) (hκ1 : κ < 1) (hg0 : 0 ≤ g) (hg1 : g < 1 / 2) (hd : Rep g)
    {wl : WeakLearner F64 H} (hwl : AnswersSmooth S κ wl) (hE : ∀ it d, SmoothWeights κ S.length d → 2 * g ≤ exactEdge S d (wl it d))
    (hL : maxLoop s₀ ≤ 10 ^ 6) {n : Nat} {qs : List (List F64)} {s : SmoothBoostF H}
    (h : (booster P S).Reachable wl s₀ n qs s) : n < maxLoop s₀ ∧ n * denom κ g < 2 := by
  have hu := u_small
  have hu0 := u_pos
  have hκ0 : 0 < κ := lt_of_lt_of_le (by norm_num) hκ
  obtain ⟨l1, -, hlim⟩ := limit_fin (H := H) hk hg hκ0.le hκ1 hg0 hg1
  obtain ⟨hD, hD2⟩ := hlim hL
  obtain ⟨pk, pg, p1, p2, p3, p4, p5⟩ := params_of_denom hκ0.le hκ1 hg0 hg1 hd hD
  have hi := inv_of_reachable P hpm hn hk hg hκ hκ1 hg0 hg1 hd hwl h
  rcases Nat.eq_zero_or_pos n with h0 | h0
  · subst h0; exact ⟨by omega, by simp⟩
  have hpot := potential P hpm hn hk hg hκ hκ1 hg0 hg1 hd hwl hE hL h h0
  obtain ⟨M, N, hM, hN, hc⟩ := hi.cells
  rw [pot_eq hN] at hpot
  set p := 1 - base g with hp
  have hp0 : 0 < p := by linarith
  have hm1 : (1 : ℝ) ≤ S.length := by exact_mod_cast List.length_pos_iff.mpr hi.ne
  have hup : (S.map fun e => Phi p (N e)).sum ≤ S.length * (1 / rate p) := by
    have := List.sum_le_sum (l := S) (f := fun e => Phi p (N e)) (g := fun _ => 1 / rate p) fun e _ => (Phi_lt hp0 p2).le
    simpa using this
  rw [Phi_one (by linarith)] at hpot
  have h2 : S.length * ((gain p - 3 / 10 ^ 8) * ((1 - 2 / 10 ^ 8) * κ * ((n : ℝ) - 1) + √(1 - p))) ≤ S.length * (√(1 - p) / rate p) := by
    have e1 : S.length * (1 / rate p) - S.length * ((1 - √(1 - p)) / rate p) = S.length * (√(1 - p) / rate p) := by ring
    rw [← e1]
    linarith only [hpot, hup]
  have h3 := rounds_real hκ0 hκ1 p1 p2 (n := n) (by exact_mod_cast h0) (le_of_mul_le_mul_left h2 (by linarith))
  have hle := hi.le
  rw [hi.max] at hle
  have hn6 : (n : ℝ) ≤ 10 ^ 6 := by exact_mod_cast (hle.trans hL)
  have hn0 : (0 : ℝ) ≤ n := Nat.cast_nonneg n
  have h4 : (n : ℝ) * denom κ g ≤ n * denom κ p + 10 ^ 6 * (4 * u) := by
    have h5 : (n : ℝ) * (4 * u) ≤ 10 ^ 6 * (4 * u) := mul_le_mul_of_nonneg_right hn6 (by positivity)
    have h6 := mul_le_mul_of_nonneg_left p5 hn0
    linarith only [h5, h6]
  have h7 : (n : ℝ) * denom κ p ≤ 2 - p / 2 := h3
  norm_num at hu h4 hD2 p1 ⊢
  refine ⟨?_, by linarith only [h4, h7, p1, hu]⟩
  by_contra hcon
  have hnL : n = maxLoop s₀ := by omega
  rw [← hnL] at hD2
  linarith only [h4, h7, hD2, p1, hu]

end SmoothBoostF

end Miniboosts
