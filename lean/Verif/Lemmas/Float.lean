import Verif.Model.Float
import Mathlib.Tactic.Linarith
import Mathlib.Tactic.Ring
import Mathlib.Tactic.NormNum
import Mathlib.Tactic.Positivity
import Mathlib.Tactic.FieldSimp

/-! Helper lemmas on rounding to binary64. -/

namespace Miniboosts.F64

theorem roundEven_err (y : ℝ) : |(roundEven y : ℝ) - y| ≤ 1 / 2 := by
  have h0 := Int.fract_nonneg y
  have h1 := Int.fract_lt_one y
  have h2 : (⌊y⌋ : ℝ) = y - Int.fract y := by rw [Int.fract]; ring
  unfold roundEven
  split_ifs with a b c <;> rw [abs_le] <;> push_cast <;> rw [h2] <;> constructor <;> linarith

theorem roundEven_eq_of_lt {y : ℝ} {k : ℤ} (h : |y - k| < 1 / 2) : roundEven y = k := by
  have h3 := roundEven_err y
  rw [abs_lt] at h
  rw [abs_le] at h3
  have h4 : ((roundEven y - k : ℤ) : ℝ) < 1 := by push_cast; linarith
  have h5 : (-1 : ℝ) < ((roundEven y - k : ℤ) : ℝ) := by push_cast; linarith
  have h6 : roundEven y - k < 1 := by exact_mod_cast h4
  have h7 : -1 < roundEven y - k := by exact_mod_cast h5
  omega

theorem roundEven_int (k : ℤ) : roundEven k = k := roundEven_eq_of_lt (by simp)

theorem roundEven_tie {k : ℤ} (y : ℝ) (h : y = k + 1 / 2) : roundEven y = if Even k then k else k + 1 := by
  have hf : ⌊y⌋ = k := by
    rw [Int.floor_eq_iff]; constructor <;> linarith
  have hr : Int.fract y = 1 / 2 := by rw [Int.fract, hf]; linarith
  unfold roundEven
  rw [hr, hf]
  simp

theorem roundEven_pos {y : ℝ} (h : 1 / 2 < y) : 1 ≤ roundEven y := by
  have := (abs_le.mp (roundEven_err y)).1
  have h1 : (0 : ℝ) < (roundEven y : ℝ) := by linarith
  have : 0 < roundEven y := by exact_mod_cast h1
  omega

theorem roundEven_nonneg {y : ℝ} (h : 0 ≤ y) : 0 ≤ roundEven y := by
  unfold roundEven
  have := Int.floor_nonneg.mpr h
  split_ifs <;> omega

/-- The unit roundoff. -/
noncomputable def u : ℝ := 2 ^ (-53 : ℤ)

/-- Half of the smallest positive number. -/
noncomputable def eta : ℝ := 2 ^ (-1075 : ℤ)

theorem u_pos : 0 < u := by unfold u; positivity

theorem eta_pos : 0 < eta := by unfold eta; positivity

theorem u_eq : u = 1 / 9007199254740992 := by unfold u; norm_num [zpow_neg]

theorem u_small : u ≤ 1 / 9000000000000000 := by rw [u_eq]; norm_num

theorem eta_le_u : eta ≤ u := zpow_le_zpow_right₀ (by norm_num) (by norm_num)

theorem eta_le_aux : eta ≤ u * u * u * u := by
  have : u * u * u * u = 2 ^ (-212 : ℤ) := by
    unfold u
    rw [← zpow_add₀ (by norm_num), ← zpow_add₀ (by norm_num), ← zpow_add₀ (by norm_num)]; norm_num
  rw [this]
  exact zpow_le_zpow_right₀ (by norm_num) (by norm_num)

theorem two_eta : 2 ^ (-1074 : ℤ) = 2 * eta := by
  unfold eta
  rw [show (2 : ℝ) * 2 ^ (-1075 : ℤ) = 2 ^ (1 : ℤ) * 2 ^ (-1075 : ℤ) by norm_num, ← zpow_add₀ (by norm_num)]
  norm_num

theorem pow_ulp_pos (e : ℤ) : (0 : ℝ) < 2 ^ e := by positivity

theorem round_err' (x : ℝ) : |round x - x| ≤ 2 ^ ulpExp x / 2 := by
  unfold round
  have h := roundEven_err (x / 2 ^ ulpExp x)
  have hp := pow_ulp_pos (ulpExp x)
  have : (roundEven (x / 2 ^ ulpExp x) : ℝ) * 2 ^ ulpExp x - x = ((roundEven (x / 2 ^ ulpExp x) : ℝ) - x / 2 ^ ulpExp x) * 2 ^ ulpExp x := by
    rw [sub_mul, div_mul_cancel₀ _ hp.ne']
  rw [this, abs_mul, abs_of_pos hp]
  nlinarith

theorem half_ulp {x : ℝ} (hx0 : x ≠ 0) : (2 : ℝ) ^ ulpExp x / 2 ≤ max (u * |x|) eta := by
  unfold ulpExp
  rcases le_total (Int.log 2 |x| - 52) (-1074) with h | h
  · rw [max_eq_right h, two_eta]
    exact le_max_of_le_right (by linarith)
  · rw [max_eq_left h]
    have hx : 0 < |x| := abs_pos.mpr hx0
    apply le_max_of_le_left
    have h1 := Int.zpow_log_le_self (b := 2) (by norm_num) hx
    have h2 : (2 : ℝ) ^ (Int.log 2 |x| - 52) / 2 = u * 2 ^ Int.log 2 |x| := by
      unfold u
      rw [← zpow_add₀ (by norm_num), div_eq_mul_inv, ← zpow_neg_one, ← zpow_add₀ (by norm_num)]
      congr 1; ring
    rw [h2]
    exact mul_le_mul_of_nonneg_left (by exact_mod_cast h1) u_pos.le

theorem round_zero : round 0 = 0 := by simp [round, show roundEven 0 = 0 by simpa using roundEven_int 0]

theorem round_err (x : ℝ) : |round x - x| ≤ u * |x| + eta := by
  by_cases hx : x = 0
  · subst hx; simp [round_zero, eta_pos.le]
  refine (round_err' x).trans ((half_ulp hx).trans (max_le ?_ ?_))
  · linarith [eta_pos]
  · have := mul_nonneg u_pos.le (abs_nonneg x); linarith

theorem round_nonneg {x : ℝ} (h : 0 ≤ x) : 0 ≤ round x := by
  unfold round
  have := roundEven_nonneg (div_nonneg h (pow_ulp_pos (ulpExp x)).le)
  have h2 : (0 : ℝ) ≤ (roundEven (x / 2 ^ ulpExp x) : ℝ) := by exact_mod_cast this
  exact mul_nonneg h2 (pow_ulp_pos _).le

theorem ulp_ge (x : ℝ) : 2 * eta ≤ 2 ^ ulpExp x := by
  rw [← two_eta]
  exact zpow_le_zpow_right₀ (by norm_num) (le_max_right _ _)

/-- No positive number above half of the smallest one is rounded to zero. -/
theorem round_pos {x : ℝ} (h : eta < x) : 2 * eta ≤ round x := by
  have hx : 0 < x := eta_pos.trans h
  have hp := pow_ulp_pos (ulpExp x)
  have hy : 1 / 2 < x / 2 ^ ulpExp x := by
    rw [lt_div_iff₀ hp]
    have := half_ulp hx.ne'
    rcases le_max_iff.mp this with h1 | h1
    · rw [abs_of_pos hx] at h1
      have : u * x < x := by nlinarith [u_small]
      linarith
    · linarith
  have h1 := roundEven_pos hy
  have h2 : (1 : ℝ) ≤ (roundEven (x / 2 ^ ulpExp x) : ℝ) := by exact_mod_cast h1
  unfold round
  have := ulp_ge x
  nlinarith

theorem round_abs_lt {x : ℝ} (h : |x| ≤ 2 ^ (1023 : ℕ)) : |round x| < 2 ^ (1024 : ℕ) := by
  have h1 := round_err x
  have h2 : |round x| ≤ |x| + (u * |x| + eta) := by
    have := abs_add_le (round x - x) x
    rw [sub_add_cancel] at this
    linarith
  have h3 := u_small
  have h4 := eta_le_u
  have h5 : (2 : ℝ) ^ (1024 : ℕ) = 2 * 2 ^ (1023 : ℕ) := by rw [pow_succ]; ring
  have h6 : (1 : ℝ) ≤ 2 ^ (1023 : ℕ) := one_le_pow₀ (by norm_num)
  rw [h5]
  clear h5
  generalize (2 : ℝ) ^ (1023 : ℕ) = M at *
  have h7 : u * |x| ≤ u * M := mul_le_mul_of_nonneg_left h u_pos.le
  have h8 : u * M ≤ 1 / 9000000000000000 * M := mul_le_mul_of_nonneg_right h3 (by linarith)
  linarith

theorem rnd_fin {x : ℝ} (h : |x| ≤ 2 ^ (1023 : ℕ)) : rnd x = fin (round x) := by
  unfold rnd
  rw [if_neg (not_le.mpr (round_abs_lt h))]

theorem big_le {x : ℝ} (h : |x| ≤ 2 ^ (100 : ℕ)) : |x| ≤ 2 ^ (1023 : ℕ) :=
  h.trans (pow_le_pow_right₀ (by norm_num) (by norm_num))

/-- Rounding a number whose exponent is known. -/
theorem round_of_log {x : ℝ} {e : ℤ} (he : -1074 ≤ e) (h1 : (2 : ℝ) ^ (e + 52) ≤ |x|) (h2 : |x| < 2 ^ (e + 53)) :
    round x = roundEven (x / 2 ^ e) * 2 ^ e := by
  have hx : 0 < |x| := lt_of_lt_of_le (pow_ulp_pos _) h1
  have hl : Int.log 2 |x| = e + 52 := by
    apply le_antisymm
    · have := (Int.lt_zpow_iff_log_lt (b := 2) (by norm_num) (x := e + 53) hx).mp (by exact_mod_cast h2)
      omega
    · exact (Int.zpow_le_iff_le_log (b := 2) (by norm_num) hx).mp (by exact_mod_cast h1)
  have : ulpExp x = e := by
    unfold ulpExp; rw [hl]; omega
  unfold round
  rw [this]

/-- Numbers with at most 53 significant bits are not changed. -/
theorem round_exact {k j : ℤ} (hk : |k| < 2 ^ 53) (hj : -1074 ≤ j) : round ((k : ℝ) * 2 ^ j) = (k : ℝ) * 2 ^ j := by
  by_cases h0 : k = 0
  · simp [h0, round_zero]
  set x : ℝ := (k : ℝ) * 2 ^ j with hx
  have hx0 : 0 < |x| := by
    rw [hx, abs_mul]
    have : (0 : ℝ) < |(k : ℝ)| := abs_pos.mpr (by exact_mod_cast h0)
    exact mul_pos this (abs_pos.mpr (pow_ulp_pos j).ne')
  have hlt : |x| < (2 : ℝ) ^ (j + 53) := by
    rw [hx, abs_mul, abs_of_pos (pow_ulp_pos j), zpow_add₀ (by norm_num), mul_comm ((2 : ℝ) ^ j)]
    apply mul_lt_mul_of_pos_right _ (pow_ulp_pos j)
    have : ((|k| : ℤ) : ℝ) < 2 ^ 53 := by exact_mod_cast hk
    rw [Int.cast_abs] at this
    rw [show (2 : ℝ) ^ (53 : ℤ) = 2 ^ (53 : ℕ) by norm_cast]
    exact this
  have hlog : Int.log 2 |x| < j + 53 := (Int.lt_zpow_iff_log_lt (b := 2) (by norm_num) hx0).mp (by exact_mod_cast hlt)
  have hle : ulpExp x ≤ j := by unfold ulpExp; omega
  have hdiv : x / 2 ^ ulpExp x = ((k * 2 ^ (j - ulpExp x).toNat : ℤ) : ℝ) := by
    push_cast
    rw [hx, mul_div_assoc, ← zpow_sub₀ (by norm_num), ← zpow_natCast, Int.toNat_of_nonneg (sub_nonneg.mpr hle)]
  unfold round
  rw [hdiv, roundEven_int, ← hdiv, div_mul_cancel₀ _ (pow_ulp_pos _).ne']

theorem round_one : round 1 = 1 := by
  have := round_exact (k := 1) (j := 0) (by norm_num) (by norm_num)
  simpa using this

end Miniboosts.F64
