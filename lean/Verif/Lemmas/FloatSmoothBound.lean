import Verif.Lemmas.FloatSmoothRun

/-! The limit and the number of rounds of SmoothBoost in `f64`. -/

namespace Miniboosts

open F64

variable {H X : Type*} [Classifier H X F64]

namespace SmoothBoostF

open SmoothBoost (mu mu_eq mu_pos mu_le_one Phi rate gain curv Phi_step gain_ge rate_bounds rate_pos Phi_lt Phi_one sum_map_sub')

/-- The denominator of the limit, without rounding. -/
noncomputable def denom (κ g : ℝ) : ℝ := κ * g ^ 2 * √(1 - g)

theorem round_unit {x : ℝ} (h0 : 0 ≤ x) (h1 : x ≤ 1) : 0 ≤ F64.round x ∧ F64.round x ≤ 1 ∧ |F64.round x - x| ≤ 2 * u ∧ rnd x = fin (F64.round x) := by
  have hu := u_pos
  have he := eta_le_u
  refine ⟨round_nonneg h0, round_le_rep rep_one h1, (round_err x).trans ?_, rnd_small (by rw [abs_of_nonneg h0]; norm_num; linarith)⟩
  rw [abs_of_nonneg h0]
  nlinarith

/-- The denominator of the limit. -/
theorem denom_fin {κ g : ℝ} (hκ0 : 0 ≤ κ) (hκ1 : κ < 1) (hg0 : 0 ≤ g) (hg1 : g < 1 / 2) :
    ∃ d : ℝ, mul (mul (fin κ) (mul (fin g) (fin g))) (F64.sqrt (sub (fin 1) (fin g))) = fin d ∧ 0 ≤ d ∧ d ≤ 1 ∧ |d - denom κ g| ≤ 16 * u := by
  have hu := u_pos
  obtain ⟨b1, b2, b3⟩ := base_bounds hg0 hg1
  have hsub : sub (fin 1) (fin g) = fin (base g) := by
    show rnd (1 + -g) = _
    rw [← sub_eq_add_neg, rnd_small (by rw [abs_of_pos (by linarith)]; norm_num; linarith)]
    rfl
  set b := base g with hb
  have hgg : g * g ≤ 1 := by nlinarith
  obtain ⟨p1, p2, p3, p4⟩ := round_unit (mul_nonneg hg0 hg0) hgg
  set γ2 := F64.round (g * g) with hγ2
  obtain ⟨a1, a2, a3, a4⟩ := round_unit (mul_nonneg hκ0 p1) (by nlinarith : κ * γ2 ≤ 1)
  set a := F64.round (κ * γ2) with ha
  have hsb1 : √b ≤ 1 := Real.sqrt_le_one.mpr b2
  obtain ⟨r1, r2, r3, r4⟩ := round_unit (Real.sqrt_nonneg b) hsb1
  set r := F64.round √b with hr
  obtain ⟨d1, d2, d3, d4⟩ := round_unit (mul_nonneg a1 r1) (by nlinarith : a * r ≤ 1)
  refine ⟨F64.round (a * r), ?_, d1, d2, ?_⟩
  · rw [hsub]
    have e1 : mul (fin g) (fin g) = fin γ2 := p4
    have e2 : mul (fin κ) (fin γ2) = fin a := a4
    have e3 : F64.sqrt (fin b) = fin r := (if_pos (by linarith)).trans r4
    rw [e1, e2, e3]
    exact d4
  · have hs0 := Real.sqrt_nonneg (1 - g)
    have hs1 : √(1 - g) ≤ 1 := Real.sqrt_le_one.mpr (by linarith)
    have hsb : |√b - √(1 - g)| ≤ 2 * u := by
      have h2 : √(1 / 4) ≤ √b := Real.sqrt_le_sqrt (by linarith)
      have h3 : √(1 / 4) ≤ √(1 - g) := Real.sqrt_le_sqrt (by linarith)
      have h4 : √(1 / 4 : ℝ) = 1 / 2 := by rw [show (1 / 4 : ℝ) = (1 / 2) ^ 2 by norm_num, Real.sqrt_sq (by norm_num)]
      rw [h4] at h2 h3
      have h5 : (√b - √(1 - g)) * (√b + √(1 - g)) = b - (1 - g) := by
        have q1 := Real.mul_self_sqrt (show 0 ≤ b by linarith)
        have q2 := Real.mul_self_sqrt (show 0 ≤ 1 - g by linarith)
        linarith
      have h6 : |√b - √(1 - g)| * |√b + √(1 - g)| ≤ 2 * u := by rw [← abs_mul, h5]; exact b3
      have h7 : 1 ≤ |√b + √(1 - g)| := by rw [abs_of_nonneg (by positivity)]; linarith
      nlinarith [abs_nonneg (√b - √(1 - g))]
    have h1 : |a - κ * (g * g)| ≤ 4 * u := by
      have h2 : κ * γ2 - κ * (g * g) = κ * (γ2 - g * g) := by ring
      have h3 : |κ * γ2 - κ * (g * g)| ≤ 2 * u := by
        rw [h2, abs_mul, abs_of_nonneg hκ0]
        nlinarith [abs_nonneg (γ2 - g * g)]
      have := abs_add_le (a - κ * γ2) (κ * γ2 - κ * (g * g))
      rw [sub_add_sub_cancel] at this
      linarith
    have h2 : |r - √(1 - g)| ≤ 4 * u := by
      have := abs_add_le (r - √b) (√b - √(1 - g))
      rw [sub_add_sub_cancel] at this
      linarith
    have h3 : a * r - denom κ g = (a - κ * (g * g)) * r + κ * (g * g) * (r - √(1 - g)) := by unfold denom; ring
    have h4 : |a * r - denom κ g| ≤ 8 * u := by
      rw [h3]
      refine (abs_add_le _ _).trans ?_
      rw [abs_mul, abs_mul, abs_of_nonneg r1, abs_of_nonneg (mul_nonneg hκ0 (mul_nonneg hg0 hg0))]
      have h5 : |a - κ * (g * g)| * r ≤ 4 * u * 1 := mul_le_mul h1 r2 r1 (by positivity)
      have h6 : κ * (g * g) * |r - √(1 - g)| ≤ 1 * (4 * u) := mul_le_mul (by nlinarith) h2 (abs_nonneg _) (by norm_num)
      linarith
    have := abs_add_le (F64.round (a * r) - a * r) (a * r - denom κ g)
    rw [sub_add_sub_cancel] at this
    linarith

/-- The limit is at least one; a moderate limit is close to `2/(κγ²√(1-γ))`. -/
theorem limit_fin {s₀ : SmoothBoostF H} {κ g : ℝ} (hk : s₀.kappa = fin κ) (hg : s₀.gamma = fin g) (hκ0 : 0 ≤ κ) (hκ1 : κ < 1) (hg0 : 0 ≤ g)
    (hg1 : g < 1 / 2) :
    1 ≤ maxLoop s₀ ∧ maxLoop s₀ ≤ 2 ^ 64 - 1 ∧ (maxLoop s₀ ≤ 10 ^ 6 → 1 / 10 ^ 6 ≤ denom κ g ∧ 2 ≤ (1 + 1 / 10 ^ 7) * (maxLoop s₀ * denom κ g)) := by
  have hu := u_small
  have hu0 := u_pos
  have het := eta_tiny
  obtain ⟨d, e1, d1, d2, d3⟩ := denom_fin hκ0 hκ1 hg0 hg1
  have hL : maxLoop s₀ = ceilUsize (div (fin 2) (fin d)) := by unfold maxLoop; rw [hk, hg, e1]
  rw [hL]
  have hinf : ceilUsize (inf false) = 2 ^ 64 - 1 := rfl
  by_cases h0 : d = 0
  · have : div (fin 2) (fin d) = inf false := by
      simp only [div, if_pos h0]; norm_num
    rw [this, hinf]
    exact ⟨by norm_num, le_rfl, fun h => by norm_num at h⟩
  have hd0 : 0 < d := lt_of_le_of_ne d1 (Ne.symm h0)
  have hdiv : div (fin 2) (fin d) = rnd (2 / d) := by simp only [div, if_neg h0]
  rw [hdiv]
  have h2d : 2 ≤ 2 / d := by rw [le_div_iff₀ hd0]; linarith
  unfold rnd
  by_cases hbig : 2 ^ (1024 : ℕ) ≤ |F64.round (2 / d)|
  · rw [if_pos hbig]
    have : decide (2 / d < 0) = false := by simp; linarith
    rw [this, hinf]
    exact ⟨by norm_num, le_rfl, fun h => by norm_num at h⟩
  rw [if_neg hbig]
  have hr2 : 2 ≤ F64.round (2 / d) := rep_le_round ⟨2, 0, by norm_num, by norm_num, by norm_num⟩ h2d
  have hceil : ceilUsize (fin (F64.round (2 / d))) = min ⌈F64.round (2 / d)⌉₊ (2 ^ 64 - 1) := rfl
  rw [hceil]
  have h1 : 1 ≤ ⌈F64.round (2 / d)⌉₊ := Nat.one_le_ceil_iff.mpr (by linarith)
  refine ⟨le_min h1 (by norm_num), min_le_right _ _, fun hle => ?_⟩
  have hmin : min ⌈F64.round (2 / d)⌉₊ (2 ^ 64 - 1) = ⌈F64.round (2 / d)⌉₊ := by
    apply min_eq_left
    rcases min_le_iff.mp hle with h | h
    · exact h.trans (by norm_num)
    · norm_num at h
  rw [hmin] at hle ⊢
  set L := ⌈F64.round (2 / d)⌉₊ with hLd
  have hceil' : F64.round (2 / d) ≤ L := Nat.le_ceil _
  have hL6 : (L : ℝ) ≤ 10 ^ 6 := by exact_mod_cast hle
  have hre := (abs_le.mp (round_err (2 / d))).1
  rw [abs_of_pos (by linarith)] at hre
  have h3 : (1 - 1 / 10 ^ 12) * (2 / d) ≤ L := by
    have : u * (2 / d) ≤ 1 / 9000000000000000 * (2 / d) := mul_le_mul_of_nonneg_right hu (by linarith)
    norm_num at het this ⊢
    linarith
  have h4 : (1 - 1 / 10 ^ 12) * 2 ≤ L * d := by
    have h := mul_le_mul_of_nonneg_right h3 hd0.le
    rwa [mul_assoc, div_mul_cancel₀ 2 hd0.ne'] at h
  have hdd := abs_le.mp d3
  have hd6 : 19 / 10 ^ 7 ≤ d := by
    by_contra hcon
    push Not at hcon
    have : (L : ℝ) * d ≤ 10 ^ 6 * (19 / 10 ^ 7) := mul_le_mul hL6 hcon.le hd0.le (by norm_num)
    norm_num at this h4
    linarith
  norm_num at hu hd6
  have hD : 1 / 10 ^ 6 ≤ denom κ g := by norm_num; linarith [hdd.2]
  refine ⟨hD, ?_⟩
  have hL0 : (0 : ℝ) ≤ L := Nat.cast_nonneg _
  have h5 : L * d ≤ L * denom κ g + 1 / 10 ^ 8 := by
    have : L * (d - denom κ g) ≤ 10 ^ 6 * (16 * u) := by
      calc L * (d - denom κ g) ≤ L * (16 * u) := mul_le_mul_of_nonneg_left hdd.2 hL0
        _ ≤ _ := mul_le_mul_of_nonneg_right hL6 (by positivity)
    norm_num at this ⊢
    linarith
  norm_num at h4 h5 ⊢
  linarith

/-- A moderate denominator gives a moderate limit. -/
theorem limit_le {s₀ : SmoothBoostF H} {κ g : ℝ} (hk : s₀.kappa = fin κ) (hg : s₀.gamma = fin g) (hκ0 : 0 ≤ κ) (hκ1 : κ < 1) (hg0 : 0 ≤ g)
    (hg1 : g < 1 / 2) (hD : 3 / 10 ^ 6 ≤ denom κ g) : maxLoop s₀ ≤ 10 ^ 6 := by
  have hu := u_small
  obtain ⟨d, e1, d1, d2, d3⟩ := denom_fin hκ0 hκ1 hg0 hg1
  have hL : maxLoop s₀ = ceilUsize (div (fin 2) (fin d)) := by unfold maxLoop; rw [hk, hg, e1]
  have hd : 2 / 10 ^ 6 ≤ d := by have := (abs_le.mp d3).1; norm_num at hu hD ⊢; linarith
  have hd0 : 0 < d := lt_of_lt_of_le (by norm_num) hd
  have h2d : 2 / d ≤ 10 ^ 6 := by rw [div_le_iff₀ hd0]; norm_num at hd ⊢; linarith
  have h0 : 0 ≤ 2 / d := by positivity
  have hdiv : div (fin 2) (fin d) = fin (F64.round (2 / d)) := by
    simp only [div, if_neg hd0.ne']
    exact rnd_small (by rw [abs_of_nonneg h0]; exact h2d.trans (by norm_num))
  have hr : F64.round (2 / d) ≤ ((10 ^ 6 : ℕ) : ℝ) := round_le_rep (rep_nat le_rfl) (h2d.trans (by norm_num))
  rw [hL, hdiv]
  exact (min_le_left _ _).trans (Nat.ceil_le.mpr hr)

/-- From the computed weights to those of the analysis. -/
theorem edge_transfer {A : Type*} (S : List A) (M μ w c : A → ℝ) {K σ g : ℝ} (hK : 0 < K) (hμ : 0 ≤ (S.map μ).sum) (hg0 : 0 ≤ g) (hg1 : g ≤ 1 / 2)
    (hσ : |σ - (S.map M).sum| ≤ 1 / 10 ^ 9 * (S.map M).sum) (hw : (S.map fun e => |σ * w e - M e|).sum ≤ 1 / 10 ^ 9 * (S.map M).sum)
    (hM : (S.map fun e => |M e - K * μ e|).sum ≤ 1 / 10 ^ 12 * (K * (S.map μ).sum)) (hc : ∀ e ∈ S, |c e| ≤ 1)
    (hE : 2 * g ≤ (S.map fun e => w e * c e).sum) : (2 * g - 6 / 10 ^ 9) * (S.map μ).sum ≤ (S.map fun e => μ e * c e).sum := by
  set B := (S.map μ).sum with hB
  set Z := (S.map M).sum with hZ
  have e1 : (S.map fun e => K * μ e).sum = K * B := by rw [hB, ← List.sum_map_mul_left]
  have hZB : |Z - K * B| ≤ 1 / 10 ^ 12 * (K * B) := by
    have := sum_close S M (fun e => K * μ e) (fun e => |M e - K * μ e|) fun e _ => le_rfl
    rw [e1] at this
    exact this.trans hM
  have h1 : |σ * (S.map fun e => w e * c e).sum - (S.map fun e => M e * c e).sum| ≤ 1 / 10 ^ 9 * Z := by
    have e2 : σ * (S.map fun e => w e * c e).sum = (S.map fun e => σ * w e * c e).sum := by
      rw [← List.sum_map_mul_left]; simp only [mul_assoc]
    rw [e2]
    refine (sum_close S (fun e => σ * w e * c e) (fun e => M e * c e) (fun e => |σ * w e - M e|) fun e he => ?_).trans hw
    rw [← sub_mul, abs_mul]
    nlinarith [abs_nonneg (σ * w e - M e), hc e he]
  have h2 : |(S.map fun e => M e * c e).sum - K * (S.map fun e => μ e * c e).sum| ≤ 1 / 10 ^ 12 * (K * B) := by
    have e2 : K * (S.map fun e => μ e * c e).sum = (S.map fun e => K * μ e * c e).sum := by
      rw [← List.sum_map_mul_left]; simp only [mul_assoc]
    rw [e2]
    refine (sum_close S (fun e => M e * c e) (fun e => K * μ e * c e) (fun e => |M e - K * μ e|) fun e he => ?_).trans hM
    rw [← sub_mul, abs_mul]
    nlinarith [abs_nonneg (M e - K * μ e), hc e he]
  have hKB : 0 ≤ K * B := mul_nonneg hK.le hμ
  have a1 := abs_le.mp hZB
  have a2 := abs_le.mp h1
  have a3 := abs_le.mp h2
  have a4 := abs_le.mp hσ
  have hZ0 : 0 ≤ Z := by norm_num at a1 ⊢; linarith [a1.1]
  have hσ0 : 0 ≤ σ := by norm_num at a4 ⊢; linarith [a4.1]
  have h3 : σ * (2 * g) ≤ σ * (S.map fun e => w e * c e).sum := mul_le_mul_of_nonneg_left hE hσ0
  have h4 : (1 - 1 / 10 ^ 9) * Z * (2 * g) ≤ σ * (2 * g) := mul_le_mul_of_nonneg_right (by norm_num at a4 ⊢; linarith [a4.1]) (by linarith)
  have h5 : (1 - 1 / 10 ^ 12) * (K * B) * (2 * g) ≤ Z * (2 * g) := mul_le_mul_of_nonneg_right (by norm_num at a1 ⊢; linarith [a1.1]) (by linarith)
  have h6 : Z * (2 * g) ≤ Z * 1 := mul_le_mul_of_nonneg_left (by linarith) hZ0
  have h7 : K * B * (2 * g) ≤ K * B * 1 := mul_le_mul_of_nonneg_left (by linarith) hKB
  have h8 : K * ((2 * g - 6 / 10 ^ 9) * B) ≤ K * (S.map fun e => μ e * c e).sum := by
    have e3 : K * ((2 * g - 6 / 10 ^ 9) * B) = K * B * (2 * g) - 6 / 10 ^ 9 * (K * B) := by ring
    rw [e3]
    norm_num at a1 a2 a3 h4 h5 h6 h7 ⊢
    linarith [a1.1, a1.2, a2.1, a2.2, a3.1, a3.2]
  exact le_of_mul_le_mul_left h8 hK

/-- A little more room costs little. -/
theorem curv_close {p : ℝ} (h0 : 0 < p) (h1 : p ≤ 1 / 2) {θ : ℝ} (hθ0 : 0 ≤ θ) (hθ : θ ≤ 1) :
    curv (rate p) (1 + θ + 2 / 10 ^ 9) ≤ curv (rate p) (1 + θ) + 12 / 10 ^ 9 := by
  have hc := rate_pos h0 h1
  obtain ⟨-, r2⟩ := rate_bounds h0 h1
  set c := rate p with hcd
  have hc2 : c ≤ 3 / 8 := by nlinarith
  unfold curv
  have h2 := exp_close (x := c * (1 + θ + 2 / 10 ^ 9)) (y := c * (1 + θ)) (c := c * (2 / 10 ^ 9)) (by norm_num; linarith)
    (by rw [← mul_sub, abs_mul, abs_of_pos hc]; norm_num)
  have h3 : Real.exp (c * (1 + θ)) ≤ 3 := by
    have : Real.exp (c * (1 + θ)) ≤ Real.exp 1 := Real.exp_le_exp.mpr (by nlinarith)
    have := Real.exp_one_lt_d9
    linarith
  have h4 := (abs_le.mp h2).2
  have h5 : (Real.exp (c * (1 + θ + 2 / 10 ^ 9)) - 1) / c ≤ (Real.exp (c * (1 + θ)) - 1) / c + 12 / 10 ^ 9 := by
    rw [div_add' _ _ _ hc.ne', div_le_div_iff_of_pos_right hc]
    have h6 : 2 * (c * (2 / 10 ^ 9)) * Real.exp (c * (1 + θ)) ≤ 2 * (c * (2 / 10 ^ 9)) * 3 := mul_le_mul_of_nonneg_left h3 (by positivity)
    linarith
  linarith

/-- One round increases the potential. -/
theorem potential_step {A : Type*} (S : List A) {p θ : ℝ} (h0 : 0 < p) (h1 : p ≤ 1 / 2) (hθ : |θ - p / (2 + p)| ≤ 1 / 10 ^ 12)
    (N N' c : A → ℝ) (hc : ∀ e ∈ S, |c e| ≤ 1) (hN : ∀ e ∈ S, |N' e - (N e + c e - θ)| ≤ 1 / 10 ^ 9)
    (hE : (2 * p - 7 / 10 ^ 9) * (S.map fun e => mu p (N e)).sum ≤ (S.map fun e => mu p (N e) * c e).sum) :
    (gain p - 3 / 10 ^ 8) * (S.map fun e => mu p (N e)).sum ≤ (S.map fun e => Phi p (N' e)).sum - (S.map fun e => Phi p (N e)).sum := by
  set θ' := p / (2 + p) with hθ'
  have hθ0 : 0 ≤ θ' := by positivity
  have hθ1 : θ' ≤ 1 := by rw [hθ', div_le_one (by linarith)]; linarith
  have hcl := curv_close h0 h1 hθ0 hθ1
  have at' := abs_le.mp hθ
  have hstep : (S.map fun e => mu p (N e) * c e - mu p (N e) * (θ' + curv (rate p) (1 + θ') + 14 / 10 ^ 9)).sum ≤
      (S.map fun e => Phi p (N' e) - Phi p (N e)).sum := by
    apply List.sum_le_sum
    intro e he
    have a1 := abs_le.mp (hN e he)
    have a2 := abs_le.mp (hc e he)
    have hd : |N' e - N e| ≤ 1 + θ' + 2 / 10 ^ 9 := by
      rw [abs_le]; norm_num at a1 at' ⊢; constructor <;> linarith [a1.1, a1.2, at'.1, at'.2]
    have h2 := Phi_step (N := N e) h0 h1 hd
    rw [show N e + (N' e - N e) = N' e by ring] at h2
    have hm := mu_pos (γ := p) (by linarith) (N e)
    have h3 : mu p (N e) * (c e - θ' - 2 / 10 ^ 9) ≤ mu p (N e) * (N' e - N e) :=
      mul_le_mul_of_nonneg_left (by norm_num at a1 at' ⊢; linarith [a1.1, at'.2]) hm.le
    have h4 : mu p (N e) * curv (rate p) (1 + θ' + 2 / 10 ^ 9) ≤ mu p (N e) * (curv (rate p) (1 + θ') + 12 / 10 ^ 9) :=
      mul_le_mul_of_nonneg_left hcl hm.le
    linarith
  rw [sum_map_sub', sum_map_sub'] at hstep
  have hmul : (S.map fun e => mu p (N e) * (θ' + curv (rate p) (1 + θ') + 14 / 10 ^ 9)).sum =
      (S.map fun e => mu p (N e)).sum * (θ' + curv (rate p) (1 + θ') + 14 / 10 ^ 9) := by
    rw [← List.sum_map_mul_right]
  rw [hmul] at hstep
  have hB : 0 ≤ (S.map fun e => mu p (N e)).sum := List.sum_nonneg (by
    simp only [List.mem_map]; rintro _ ⟨e, -, rfl⟩; exact (mu_pos (by linarith) _).le)
  unfold gain
  rw [← hθ']
  nlinarith

/-- The number of rounds, in real numbers. -/
theorem rounds_real {κ p n : ℝ} (hκ0 : 0 < κ) (hκ1 : κ < 1) (hp0 : 99 / 10 ^ 5 ≤ p) (hp1 : p ≤ 1 / 2) (hn : 1 ≤ n)
    (h : (gain p - 3 / 10 ^ 8) * ((1 - 2 / 10 ^ 8) * κ * (n - 1) + √(1 - p)) ≤ √(1 - p) / rate p) :
    n * (κ * p ^ 2 * √(1 - p)) ≤ 2 - p / 2 := by
  have h0 : 0 < p := by linarith
  have hs2 : √(1 - p) ^ 2 = 1 - p := Real.sq_sqrt (by linarith)
  have hs0 : 0 < √(1 - p) := Real.sqrt_pos.2 (by linarith)
  have hs1 : √(1 - p) ≤ 1 := by rw [Real.sqrt_le_one]; linarith
  set σ := √(1 - p) with hσ
  have hG := gain_ge h0 hp1
  have hc := rate_pos h0 hp1
  have hcge := (rate_bounds h0 hp1).1
  have hq : 74 / 10 ^ 5 ≤ p * (1 - p / 2) := by nlinarith
  set A := κ * (n - 1) + σ with hA
  have hκn : 0 ≤ κ * (n - 1) := mul_nonneg hκ0.le (by linarith)
  have hA0 : 0 < A := by linarith
  have h1 : (1 - 2 / 10 ^ 8) * A ≤ (1 - 2 / 10 ^ 8) * κ * (n - 1) + σ := by rw [hA]; norm_num; nlinarith
  have h2 : (1 - 41 / 10 ^ 6) * (p * (1 - p / 2)) ≤ gain p - 3 / 10 ^ 8 := by norm_num at hq ⊢; linarith
  have h3 : (1 - 41 / 10 ^ 6) * (p * (1 - p / 2)) * ((1 - 2 / 10 ^ 8) * A) ≤ σ / rate p :=
    (mul_le_mul h2 h1 (by norm_num; linarith) (by norm_num at h2 hq ⊢; linarith)).trans h
  rw [le_div_iff₀ hc] at h3
  have h4 : (1 - 5 / 10 ^ 5) * (p * (1 - p / 2) * A) ≤ (1 - 41 / 10 ^ 6) * (p * (1 - p / 2)) * ((1 - 2 / 10 ^ 8) * A) := by
    have e : (1 - 41 / 10 ^ 6) * (p * (1 - p / 2)) * ((1 - 2 / 10 ^ 8) * A) = (1 - 41 / 10 ^ 6) * (1 - 2 / 10 ^ 8) * (p * (1 - p / 2) * A) := by ring
    rw [e]
    exact mul_le_mul_of_nonneg_right (by norm_num) (by nlinarith)
  have hX : 0 ≤ p * (1 - p / 2) * A := by nlinarith
  have h5 : (1 - 5 / 10 ^ 5) * (p * (1 - p / 2) * A) * (p / 2) ≤ σ := by
    refine le_trans ?_ h3
    exact mul_le_mul h4 hcge (by positivity) (le_trans (by norm_num; positivity) h4)
  -- multiply by `σ`
  have h6 : (1 - 5 / 10 ^ 5) * ((1 - p / 2) * (p ^ 2 * A * σ)) ≤ 2 * (1 - p) := by
    have := mul_le_mul_of_nonneg_right h5 hs0.le
    rw [← pow_two, hs2] at this
    nlinarith
  have h7 : p ^ 2 * A * σ ≤ 2 - 85 / 100 * p := by
    by_contra hcon
    push Not at hcon
    have h8 : (1 - p / 2) * (2 - 85 / 100 * p) ≤ (1 - p / 2) * (p ^ 2 * A * σ) := mul_le_mul_of_nonneg_left hcon.le (by linarith)
    norm_num at h6 hp0
    nlinarith
  have h8 : σ * (κ - σ) ≤ 1 / 4 := by nlinarith [sq_nonneg (σ - 1 / 2)]
  have e : n * (κ * p ^ 2 * σ) = p ^ 2 * A * σ + p ^ 2 * (σ * (κ - σ)) := by rw [hA]; ring
  rw [e]
  have h9 : p ^ 2 * (σ * (κ - σ)) ≤ p ^ 2 * (1 / 4) := mul_le_mul_of_nonneg_left h8 (sq_nonneg p)
  nlinarith

end SmoothBoostF

end Miniboosts
