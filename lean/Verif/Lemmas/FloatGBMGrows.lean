import Verif.Lemmas.FloatGBM
import Verif.Lemmas.FloatSum
import Verif.Spec.FloatGBM

/-! # Gradient boosting in `f64`: the predictions grow by the targets' total in every round -/

namespace Miniboosts

open Miniboosts F64 Spec

/-- The computed coefficient. -/
theorem coef_near {Y P y p : ℝ} (hY : 1 / 10 ≤ Y) (hY' : Y ≤ 10 ^ 15) (hP : 1 / 10 ≤ P) (hP' : P ≤ 10 ^ 15) (hy : (1 - 1 / 10 ^ 9) * Y ≤ y ∧ y ≤ (1 + 1 / 10 ^ 9) * Y)
    (hp : (1 - 1 / 10 ^ 9) * P ≤ p ∧ p ≤ (1 + 1 / 10 ^ 9) * P) :
    p ≠ 0 ∧ ∃ c, div (fin y) (fin p) = fin c ∧ F64.Rep c ∧ (1 - 3 / 10 ^ 9) * (Y / P) ≤ c ∧ c ≤ (1 + 3 / 10 ^ 9) * (Y / P) ∧ 0 < c ∧ c ≤ 2 * 10 ^ 16 := by
  have hP0 : 0 < P := by linarith
  have hp0 : 0 < p := by nlinarith [hp.1]
  set R := Y / P with hR
  have hYR : Y = R * P := by rw [hR]; field_simp
  have hR0 : 1 / 10 ^ 16 ≤ R := by
    rw [hR, le_div_iff₀ hP0]
    linarith
  have hR1 : R ≤ 10 ^ 16 := by
    rw [hR, div_le_iff₀ hP0]
    linarith
  have hq1 : y / p ≤ (1 + 21 / 10 ^ 10) * R := by
    rw [div_le_iff₀ hp0]
    have : (1 + 21 / 10 ^ 10) * R * ((1 - 1 / 10 ^ 9) * P) ≤ (1 + 21 / 10 ^ 10) * R * p := mul_le_mul_of_nonneg_left hp.1 (by positivity)
    have hRP : 0 ≤ R * P := by positivity
    nlinarith [hy.2]
  have hq2 : (1 - 21 / 10 ^ 10) * R ≤ y / p := by
    rw [le_div_iff₀ hp0]
    have : (1 - 21 / 10 ^ 10) * R * p ≤ (1 - 21 / 10 ^ 10) * R * ((1 + 1 / 10 ^ 9) * P) := mul_le_mul_of_nonneg_left hp.2 (by
      have : (0 : ℝ) ≤ 1 - 21 / 10 ^ 10 := by norm_num
      positivity)
    have hRP : 0 ≤ R * P := by positivity
    nlinarith [hy.1]
  have hq0 : 0 ≤ y / p := le_trans (mul_nonneg (by norm_num) (by linarith)) hq2
  have herr := round_err (y / p)
  rw [abs_of_nonneg hq0, abs_le] at herr
  have hu := u_small
  have hu0 := u_pos
  have hη : eta ≤ 1 / 10 ^ 40 * R := by
    have := eta_tiny
    nlinarith
  have huq : u * (y / p) ≤ 1 / 10 ^ 15 * R := by
    calc u * (y / p) ≤ (1 / 9000000000000000) * ((1 + 21 / 10 ^ 10) * R) := mul_le_mul hu hq1 hq0 (by norm_num)
      _ ≤ _ := by nlinarith
  refine ⟨hp0.ne', F64.round (y / p), ?_, rep_round _, ?_, ?_, ?_, ?_⟩
  · change (if p = 0 then _ else rnd (y / p)) = _
    rw [if_neg hp0.ne', rnd_small]
    rw [abs_of_nonneg hq0]
    linarith
  · linarith [herr.1]
  · linarith [herr.2]
  · linarith [herr.1]
  · linarith [herr.2]

/-- One example in one round. -/
theorem gbm_step_near {R c p q E : ℝ} {n : ℕ} (hn : n ≤ 100) (hp : 0 ≤ p) (hR0 : 0 ≤ R) (hc : (1 - 3 / 10 ^ 9) * R ≤ c ∧ c ≤ (1 + 3 / 10 ^ 9) * R) (hT : R * p ≤ 10 ^ 16)
    (hE0 : 0 ≤ E) (hE1 : E ≤ 10 ^ 18) (hq : F64.Rep q) (hqE : |q - E| ≤ (4 / 10 ^ 9 + n / 10 ^ 12) * E + n / 10 ^ 58) :
    ∃ q', add (fin q) (mul (fin c) (fin p)) = fin q' ∧ F64.Rep q' ∧ |q' - (E + R * p)| ≤ (4 / 10 ^ 9 + (n + 1 : ℕ) / 10 ^ 12) * (E + R * p) + (n + 1 : ℕ) / 10 ^ 58 := by
  set T := R * p with hTdef
  have hT0 : 0 ≤ T := mul_nonneg hR0 hp
  have hn' : (n : ℝ) ≤ 100 := by exact_mod_cast hn
  have hn0 : (0 : ℝ) ≤ n := Nat.cast_nonneg n
  have hu := u_small
  have hu0 := u_pos
  have hη := eta_tiny
  have hη0 := eta_pos
  have c1 : (1 - 3 / 10 ^ 9) * T ≤ c * p := by rw [hTdef]; nlinarith [mul_le_mul_of_nonneg_right hc.1 hp]
  have c2 : c * p ≤ (1 + 3 / 10 ^ 9) * T := by rw [hTdef]; nlinarith [mul_le_mul_of_nonneg_right hc.2 hp]
  have cp0 : 0 ≤ c * p := le_trans (mul_nonneg (by norm_num) hT0) c1
  have e1 := round_err (c * p)
  rw [abs_of_nonneg cp0, abs_le] at e1
  have ucp : u * (c * p) ≤ 1 / 10 ^ 15 * T := by
    calc u * (c * p) ≤ (1 / 9000000000000000) * ((1 + 3 / 10 ^ 9) * T) := mul_le_mul hu c2 cp0 (by norm_num)
      _ ≤ _ := by linarith
  set t := F64.round (c * p) with ht
  have t1 : |t - T| ≤ 39 / 10 ^ 10 * T + 1 / 10 ^ 60 := by
    rw [abs_le]; constructor <;> linarith [e1.1, e1.2]
  rw [abs_le] at t1
  have hcoef : (4 / 10 ^ 9 + n / 10 ^ 12) * E ≤ 1 / 10 ^ 8 * E := by
    apply mul_le_mul_of_nonneg_right _ hE0
    have : (n : ℝ) / 10 ^ 12 ≤ 100 / 10 ^ 12 := by gcongr
    linarith
  have hn58 : (n : ℝ) / 10 ^ 58 ≤ 1 / 10 ^ 56 := by
    calc (n : ℝ) / 10 ^ 58 ≤ 100 / 10 ^ 58 := by gcongr
      _ ≤ _ := by norm_num
  have hqE' := abs_le.mp hqE
  have hsum : |q + t| ≤ 2 * E + 2 * T + 1 / 10 ^ 50 := by
    rw [abs_le]; constructor <;> linarith [hqE'.1, hqE'.2, t1.1, t1.2]
  have e2 := add_rel hq (rep_round (c * p))
  rw [← ht] at e2
  have hus : u * |q + t| ≤ 1 / 10 ^ 14 * (E + T) + 1 / 10 ^ 60 := by
    calc u * |q + t| ≤ (1 / 9000000000000000) * (2 * E + 2 * T + 1 / 10 ^ 50) := mul_le_mul hu hsum (abs_nonneg _) (by norm_num)
      _ ≤ _ := by linarith
  rw [abs_le] at e2
  refine ⟨F64.round (q + t), ?_, rep_round _, ?_⟩
  · have m1 : mul (fin c) (fin p) = fin t := by
      change rnd (c * p) = _
      rw [rnd_small]
      rw [abs_of_nonneg cp0]; linarith
    rw [m1]
    change rnd (q + t) = _
    rw [rnd_small]
    linarith
  · push_cast
    have k1 : (4 / 10 ^ 9 + ((n : ℝ) + 1) / 10 ^ 12) * (E + T) = (4 / 10 ^ 9 + n / 10 ^ 12) * E + (4 / 10 ^ 9) * T + (n : ℝ) / 10 ^ 12 * T + 1 / 10 ^ 12 * (E + T) := by ring
    have k2 : 0 ≤ (n : ℝ) / 10 ^ 12 * T := by positivity
    have k3 : ((n : ℝ) + 1) / 10 ^ 58 = n / 10 ^ 58 + 1 / 10 ^ 58 := by ring
    rw [k1, k3, abs_le]
    constructor <;> linarith [hqE'.1, hqE'.2, t1.1, t1.2, e2.1, e2.2]

/-- The total of a list of moderate size. -/
theorem total_near {l : List ℝ} (h : PositiveTotal l) (hl : l.length ≤ 10 ^ 5) :
    l.sum ≤ 10 ^ 15 ∧ ∃ s, (l.map fin).foldl add (fin 0) = fin s ∧ (1 - 1 / 10 ^ 9) * l.sum ≤ s ∧ s ≤ (1 + 1 / 10 ^ 9) * l.sum := by
  have hs : l.sum ≤ 10 ^ 15 := by
    have h1 : l.sum ≤ l.length * 10 ^ 10 := by
      have := List.sum_le_card_nsmul l (10 ^ 10) fun x hx => (h.1 x hx).2.2
      rwa [nsmul_eq_mul] at this
    have h2 : (l.length : ℝ) ≤ 10 ^ 5 := by exact_mod_cast hl
    nlinarith
  obtain ⟨s, e1, e2, e3⟩ := foldl_near0 l (fun x hx => ⟨(h.1 x hx).2.1, (h.1 x hx).1⟩) (by linarith) (by omega)
  have h0 : 0 ≤ l.sum := by linarith [h.2]
  exact ⟨hs, s, e1, e3.bound (by omega) h0⟩

end Miniboosts
