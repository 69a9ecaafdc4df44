import Verif.Lemmas.Float
import Verif.Lemmas.Rayon
import Mathlib.Analysis.SpecialFunctions.Log.Deriv
import Mathlib.Analysis.Complex.ExponentialBounds

/-! # Error analysis of the `f64` computations of AdaBoost -/

namespace Miniboosts

namespace F64

theorem roundEven_le {y : ℝ} {k : ℤ} (h : y ≤ k) : roundEven y ≤ k := by
  have h1 : ⌊y⌋ ≤ k := by exact_mod_cast (Int.floor_le y).trans h
  rcases lt_or_eq_of_le h1 with h2 | h2
  · unfold roundEven; split_ifs <;> omega
  · have h3 : Int.fract y ≤ 0 := by rw [Int.fract, h2]; linarith
    unfold roundEven
    rw [if_pos (by linarith)]
    omega

theorem le_roundEven {y : ℝ} {k : ℤ} (h : (k : ℝ) ≤ y) : k ≤ roundEven y := by
  have h1 : k ≤ ⌊y⌋ := Int.le_floor.mpr h
  unfold roundEven; split_ifs <;> omega

/-- Representable, apart from the limit for the exponent. -/
def Rep (x : ℝ) : Prop := ∃ k j : ℤ, |k| < 2 ^ 53 ∧ -1074 ≤ j ∧ x = (k : ℝ) * 2 ^ j

theorem round_of_rep {x : ℝ} (h : Rep x) : round x = x := by
  obtain ⟨k, j, hk, hj, rfl⟩ := h
  exact round_exact hk hj

theorem rep_zero : Rep 0 := ⟨0, 0, by norm_num, by norm_num, by simp⟩

theorem rep_round (x : ℝ) : Rep (round x) := by
  by_cases hx : x = 0
  · rw [hx, round_zero]; exact rep_zero
  have hx' : 0 < |x| := abs_pos.mpr hx
  set e := ulpExp x with he
  have hp := pow_ulp_pos e
  have h1 : |x| < 2 ^ (Int.log 2 |x| + 1) := by
    have := Int.lt_zpow_succ_log_self (b := 2) (by norm_num) |x|
    simpa using this
  have h2 : |x| < 2 ^ (e + 53) := by
    refine h1.trans_le (zpow_le_zpow_right₀ (by norm_num) ?_)
    have : Int.log 2 |x| - 52 ≤ e := le_max_left _ _
    omega
  have h3 : |x / 2 ^ e| ≤ 2 ^ 53 := by
    rw [abs_div, abs_of_pos hp, div_le_iff₀ hp]
    rw [zpow_add₀ (by norm_num)] at h2
    have : (2 : ℝ) ^ (53 : ℤ) = 2 ^ 53 := by norm_cast
    rw [this] at h2
    linarith
  have hej : -1074 ≤ e := le_max_right _ _
  rw [abs_le] at h3
  have h4 : roundEven (x / 2 ^ e) ≤ 2 ^ 53 := roundEven_le (by push_cast; linarith [h3.2])
  have h5 : -2 ^ 53 ≤ roundEven (x / 2 ^ e) := le_roundEven (by push_cast; linarith [h3.1])
  have h6 : round x = (roundEven (x / 2 ^ e) : ℝ) * 2 ^ e := rfl
  rw [h6]
  generalize roundEven (x / 2 ^ e) = k at *
  rcases lt_or_eq_of_le (abs_le.mpr ⟨h5, h4⟩ : |k| ≤ 2 ^ 53) with h | h
  · exact ⟨k, e, h, hej, rfl⟩
  · have hk : k = 2 * (k / 2) := by
      rcases (abs_eq (by norm_num)).mp h with h | h <;> subst h <;> norm_num
    refine ⟨k / 2, e + 1, ?_, by omega, ?_⟩
    · rw [abs_lt]; omega
    · conv_lhs => rw [hk]
      rw [zpow_add₀ (by norm_num)]
      push_cast
      ring

theorem round_le_one {x : ℝ} (h : |x| ≤ 1) : |round x| ≤ 1 := by
  by_cases hx : x = 0
  · rw [hx, round_zero]; simp
  set e := ulpExp x with he
  have hp := pow_ulp_pos e
  have hx' : 0 < |x| := abs_pos.mpr hx
  have he0 : e ≤ 0 := by
    rw [he]; unfold ulpExp
    have : Int.log 2 |x| ≤ 0 := by
      have h1 : ((2 : ℕ) : ℝ) ^ Int.log 2 |x| ≤ |x| := Int.zpow_log_le_self (by norm_num) hx'
      by_contra hc
      have h2 : (2 : ℝ) ^ (1 : ℤ) ≤ 2 ^ Int.log 2 |x| := zpow_le_zpow_right₀ (by norm_num) (by omega)
      push_cast at h1
      norm_num at h2
      linarith
    omega
  obtain ⟨N, hN⟩ := Int.eq_ofNat_of_zero_le (show 0 ≤ -e by omega)
  have hpe : (2 : ℝ) ^ e = 1 / 2 ^ N := by
    rw [show e = -(N : ℤ) by omega, zpow_neg, zpow_natCast, one_div]
  have hP : (0 : ℝ) < 2 ^ N := by positivity
  have h3 : |x / 2 ^ e| ≤ 2 ^ N := by
    rw [hpe, div_div_eq_mul_div, div_one, abs_mul, abs_of_pos hP]
    nlinarith
  rw [abs_le] at h3
  have h4 : roundEven (x / 2 ^ e) ≤ 2 ^ N := roundEven_le (by push_cast; linarith [h3.2])
  have h5 : -2 ^ N ≤ roundEven (x / 2 ^ e) := le_roundEven (by push_cast; linarith [h3.1])
  have h6 : round x = (roundEven (x / 2 ^ e) : ℝ) * 2 ^ e := rfl
  have h7 : |(roundEven (x / 2 ^ e) : ℝ)| ≤ 2 ^ N := by
    rw [abs_le]; constructor <;> [exact_mod_cast h5; exact_mod_cast h4]
  rw [h6, abs_mul, abs_of_pos hp, hpe]
  rw [mul_one_div, div_le_one hP]
  simpa [hpe] using h7

/-- Rounding a number of moderate size. -/
theorem rnd_small {x : ℝ} (h : |x| ≤ 10 ^ 20) : rnd x = fin (round x) :=
  rnd_fin (big_le (h.trans (by norm_num)))

theorem eta_tiny : eta ≤ 1 / 10 ^ 60 := by
  have h1 := eta_le_aux
  have h2 := u_small
  have h3 := u_pos
  have : u * u * u * u ≤ (1 / 9000000000000000) * (1 / 9000000000000000) * (1 / 9000000000000000) * (1 / 9000000000000000) := by gcongr
  exact (h1.trans this).trans (by norm_num)

/-! ## Sums -/

section Sum

/-- Adding up a piece. -/
theorem foldl_add_err (B : ℝ) (hB1 : 1 ≤ B) (hB2 : B ≤ 10 ^ 10) : ∀ (xs : List ℝ) (acc P : ℝ) (j : ℕ), Rep acc → |acc - P| ≤ 2 * u * B * j →
    |P| + (xs.map (|·|)).sum ≤ B → j + xs.length ≤ 10 ^ 6 →
    ∃ s, (xs.map fin).foldl add (fin acc) = fin s ∧ Rep s ∧ |s - (P + xs.sum)| ≤ 2 * u * B * (j + xs.length : ℕ) := by
  intro xs
  induction xs with
  | nil => intro acc P j hr ha hb hn; exact ⟨acc, rfl, hr, by simpa using ha⟩
  | cons x xs ih =>
    intro acc P j hr ha hb hn
    have hu := u_small
    have hu0 := u_pos
    have heta := eta_le_aux
    simp only [List.map_cons, List.sum_cons, List.length_cons] at hb hn
    have hnn : 0 ≤ (xs.map (|·|)).sum := List.sum_nonneg (by simp only [List.mem_map]; rintro _ ⟨a, -, rfl⟩; exact abs_nonneg a)
    have hj : (j : ℝ) ≤ 1000000 := by exact_mod_cast (by omega : j ≤ 1000000)
    have hj0 : (0 : ℝ) ≤ j := Nat.cast_nonneg j
    have hax : |acc - P| ≤ B / 1000 := by
      refine ha.trans ?_
      have : 2 * u * j ≤ 1 / 1000 := by nlinarith
      calc 2 * u * B * j = (2 * u * j) * B := by ring
        _ ≤ 1 / 1000 * B := by gcongr
        _ = B / 1000 := by ring
    have hs : |acc + x| ≤ 11 / 10 * B := by
      have h1 : |acc + x| ≤ |acc - P| + (|P| + |x|) := by
        calc |acc + x| = |(acc - P) + (P + x)| := by ring_nf
          _ ≤ _ := (abs_add_le _ _).trans (add_le_add le_rfl (abs_add_le _ _))
      linarith
    have hre := round_err (acc + x)
    have heta' : eta ≤ u * (1 / 10) := by
      refine heta.trans ?_
      have : u * u * u ≤ 1 / 10 := by
        calc u * u * u ≤ (1 / 9000000000000000) * (1 / 9000000000000000) * (1 / 9000000000000000) := by gcongr
          _ ≤ _ := by norm_num
      nlinarith
    have hre' : |round (acc + x) - (acc + x)| ≤ 2 * u * B := by
      refine hre.trans ?_
      calc u * |acc + x| + eta ≤ u * (11 / 10 * B) + u * (1 / 10) := by gcongr
        _ ≤ 2 * u * B := by nlinarith
    obtain ⟨s, h1, h2, h3⟩ := ih (round (acc + x)) (P + x) (j + 1) (rep_round _)
      (by
        calc |round (acc + x) - (P + x)| = |(round (acc + x) - (acc + x)) + (acc - P)| := by ring_nf
          _ ≤ _ := (abs_add_le _ _).trans (add_le_add hre' ha)
          _ = _ := by push_cast; ring)
      (by have := abs_add_le P x; linarith) (by omega)
    refine ⟨s, ?_, h2, ?_⟩
    · rw [List.map_cons, List.foldl_cons, add, rnd_small (hs.trans (by norm_num at hB2 ⊢; linarith))]; exact h1
    · rw [List.sum_cons, ← add_assoc, List.length_cons, show j + (xs.length + 1) = j + 1 + xs.length by ring]; exact h3

theorem map_fin_split {a b : List F64} {xs : List ℝ} (h : a ++ b = xs.map fin) : ∃ ys zs, xs = ys ++ zs ∧ a = ys.map fin ∧ b = zs.map fin := by
  obtain ⟨ys, zs, h1, h2, h3⟩ := List.map_eq_append_iff.mp h.symm
  exact ⟨ys, zs, h1, h2.symm, h3.symm⟩

/-- However the work is divided. -/
theorem split_sum_err : ∀ (t : Split F64) (xs : List ℝ), t.items = xs.map fin → (xs.map (|·|)).sum ≤ 2 → xs.length ≤ 10 ^ 5 →
    ∃ s, t.sum add (fin 0) = fin s ∧ Rep s ∧ |s - xs.sum| ≤ 8 * u * xs.length ∧ (xs ≠ [] → |s - xs.sum| ≤ 8 * u * xs.length - 4 * u) := by
  intro t
  have hu := u_small
  have hu0 := u_pos
  have heta := eta_le_u
  induction t with
  | seq l =>
    intro xs hi hb hn
    simp only [Split.items] at hi
    obtain ⟨s, h1, h2, h3⟩ := foldl_add_err 2 (by norm_num) (by norm_num) xs 0 0 0 rep_zero (by simp) (by simpa using hb) (by omega)
    simp only [zero_add] at h3
    rw [show 2 * u * 2 = 4 * u by ring] at h3
    have hl : (0 : ℝ) ≤ xs.length := Nat.cast_nonneg _
    refine ⟨s, by rw [Split.sum, Split.foldWith, hi]; exact h1, h2, h3.trans (by nlinarith), fun hne => h3.trans ?_⟩
    have : (1 : ℝ) ≤ xs.length := by exact_mod_cast List.length_pos_iff.mpr hne
    nlinarith
  | join l r ihl ihr =>
    intro xs hi hb hn
    obtain ⟨ys, zs, rfl, hl, hr⟩ := map_fin_split hi
    simp only [List.map_append, List.sum_append, List.length_append] at hb hn
    have h0 : ∀ l : List ℝ, 0 ≤ (l.map (|·|)).sum := fun l =>
      List.sum_nonneg (by simp only [List.mem_map]; rintro _ ⟨a, -, rfl⟩; exact abs_nonneg a)
    have hsum : ∀ l : List ℝ, |l.sum| ≤ (l.map (|·|)).sum := by
      intro l
      induction l with
      | nil => simp
      | cons a l ih => simp only [List.sum_cons, List.map_cons]; exact (abs_add_le _ _).trans (by linarith)
    obtain ⟨s, h1, h2, h3, h4⟩ := ihl ys hl (by linarith [h0 zs]) (by omega)
    obtain ⟨s', h1', h2', h3', h4'⟩ := ihr zs hr (by linarith [h0 ys]) (by omega)
    have hyl : (ys.length : ℝ) ≤ 10 ^ 5 := by exact_mod_cast (by omega : ys.length ≤ 10 ^ 5)
    have hzl : (zs.length : ℝ) ≤ 10 ^ 5 := by exact_mod_cast (by omega : zs.length ≤ 10 ^ 5)
    have hyl0 : (0 : ℝ) ≤ ys.length := Nat.cast_nonneg _
    have hzl0 : (0 : ℝ) ≤ zs.length := Nat.cast_nonneg _
    have e1 : |s - ys.sum| ≤ 1 / 1000 := h3.trans (by nlinarith)
    have e2 : |s' - zs.sum| ≤ 1 / 1000 := h3'.trans (by nlinarith)
    have hs : |s + s'| ≤ 21 / 10 := by
      have : |s + s'| ≤ |s - ys.sum| + |s' - zs.sum| + (|ys.sum| + |zs.sum|) := by
        calc |s + s'| = |((s - ys.sum) + (s' - zs.sum)) + (ys.sum + zs.sum)| := by ring_nf
          _ ≤ _ := (abs_add_le _ _).trans (add_le_add (abs_add_le _ _) (abs_add_le _ _))
      linarith [hsum ys, hsum zs]
    have hadd : (Split.join l r).sum add (fin 0) = fin (round (s + s')) := by
      have : (Split.join l r).sum add (fin 0) = add (l.sum add (fin 0)) (r.sum add (fin 0)) := rfl
      rw [this, h1, h1', add, rnd_small (hs.trans (by norm_num))]
    refine ⟨_, hadd, rep_round _, ?_⟩
    simp only [List.sum_append, List.length_append, Nat.cast_add]
    by_cases hy : ys = []
    · subst hy
      have : s = 0 := by simpa using h3
      subst this
      simp only [zero_add, round_of_rep h2', List.sum_nil, List.length_nil, Nat.cast_zero, List.nil_append]
      exact ⟨h3', h4'⟩
    by_cases hz : zs = []
    · subst hz
      have : s' = 0 := by simpa using h3'
      subst this
      simp only [add_zero, round_of_rep h2, List.sum_nil, List.length_nil, Nat.cast_zero, List.append_nil]
      exact ⟨h3, h4⟩
    have hre := round_err (s + s')
    have hre' : |round (s + s') - (s + s')| ≤ 4 * u := hre.trans (by nlinarith)
    have hmain : |round (s + s') - (ys.sum + zs.sum)| ≤ 8 * u * (ys.length + zs.length) - 4 * u := by
      calc |round (s + s') - (ys.sum + zs.sum)| = |(round (s + s') - (s + s')) + ((s - ys.sum) + (s' - zs.sum))| := by ring_nf
        _ ≤ _ := (abs_add_le _ _).trans (add_le_add hre' ((abs_add_le _ _).trans (add_le_add (h4 hy) (h4' hz))))
        _ = _ := by ring
    exact ⟨hmain.trans (by linarith), fun _ => hmain⟩

end Sum

/-! ## Logarithms and exponentials -/

theorem log_close {a b c : ℝ} (hb : 0 < b) (hc : c ≤ 1 / 2) (h : |a - b| ≤ c * b) : 0 < a ∧ |Real.log a - Real.log b| ≤ 2 * c := by
  rw [abs_le] at h
  have hc0 : 0 ≤ c := by nlinarith
  have ha : 0 < a := by nlinarith
  refine ⟨ha, ?_⟩
  rw [← Real.log_div ha.ne' hb.ne']
  have h1 : a / b ≤ 1 + c := by rw [div_le_iff₀ hb]; nlinarith
  have h2 : 1 - c ≤ a / b := by rw [le_div_iff₀ hb]; nlinarith
  have hq : 0 < a / b := div_pos ha hb
  have h3 := Real.log_le_sub_one_of_pos hq
  have h4 := Real.one_sub_inv_le_log_of_pos hq
  have h5 : (a / b)⁻¹ ≤ 1 + 2 * c := by
    rw [inv_le_iff_one_le_mul₀ hq]
    nlinarith
  rw [abs_le]; constructor <;> linarith

theorem exp_close {x y c : ℝ} (hc : c ≤ 1) (h : |x - y| ≤ c) : |Real.exp x - Real.exp y| ≤ 2 * c * Real.exp y := by
  have h1 : Real.exp x - Real.exp y = (Real.exp (x - y) - 1) * Real.exp y := by
    rw [sub_mul, one_mul, ← Real.exp_add]; ring_nf
  rw [h1, abs_mul, abs_of_pos (Real.exp_pos y)]
  have h2 := Real.abs_exp_sub_one_le (h.trans hc)
  exact mul_le_mul_of_nonneg_right (by linarith) (Real.exp_pos y).le

theorem pow50 : (2 : ℝ) ^ (-50 : ℤ) = 8 * u := by rw [u_eq]; norm_num [zpow_neg]

theorem exp_forty : Real.exp 40 ≤ 10 ^ 18 := by
  have h := Real.exp_one_lt_d9
  have : Real.exp 40 = Real.exp 1 ^ 40 := by rw [← Real.exp_nat_mul]; norm_num
  rw [this]
  calc Real.exp 1 ^ 40 ≤ (2.7182818286 : ℝ) ^ 40 := by gcongr
    _ ≤ _ := by norm_num

theorem ln_fin (L : Libm) {x : ℝ} (hx : 0 < x) (hl : |Real.log x| ≤ 1000) :
    ∃ y, ln L (fin x) = fin y ∧ |y - Real.log x| ≤ 10 * u * |Real.log x| + eta := by
  have hu := u_small
  have hu0 := u_pos
  have h1 := L.ln_err x hx
  rw [pow50] at h1
  have ht : |L.lnA x| ≤ (1 + 8 * u) * |Real.log x| := by
    have := abs_add_le (L.lnA x - Real.log x) (Real.log x)
    rw [sub_add_cancel] at this
    linarith
  have hl0 := abs_nonneg (Real.log x)
  refine ⟨round (L.lnA x), ?_, ?_⟩
  · simp only [ln, if_pos hx]
    refine rnd_small (ht.trans ?_)
    nlinarith
  · have h2 := round_err (L.lnA x)
    calc |round (L.lnA x) - Real.log x| = |(round (L.lnA x) - L.lnA x) + (L.lnA x - Real.log x)| := by ring_nf
      _ ≤ u * |L.lnA x| + eta + 8 * u * |Real.log x| := (abs_add_le _ _).trans (add_le_add h2 h1)
      _ ≤ u * ((1 + 8 * u) * |Real.log x|) + eta + 8 * u * |Real.log x| := by gcongr
      _ ≤ 10 * u * |Real.log x| + eta := by nlinarith [mul_nonneg hu0.le hl0]

theorem exp_fin (L : Libm) {x : ℝ} (hx : x ≤ 40) :
    ∃ y, exp L (fin x) = fin y ∧ |y - Real.exp x| ≤ 10 * u * Real.exp x + eta ∧ (eta < (1 - 8 * u) * Real.exp x → 2 * eta ≤ y) := by
  have hu := u_small
  have hu0 := u_pos
  have h1 := L.exp_err x
  rw [pow50] at h1
  have he := Real.exp_pos x
  have hle : Real.exp x ≤ 10 ^ 18 := (Real.exp_le_exp.mpr hx).trans exp_forty
  have ht : |L.expA x| ≤ (1 + 8 * u) * Real.exp x := by
    have := abs_add_le (L.expA x - Real.exp x) (Real.exp x)
    rw [sub_add_cancel, abs_of_pos he] at this
    linarith
  refine ⟨round (L.expA x), ?_, ?_, fun hp => round_pos ?_⟩
  · simp only [exp]
    refine rnd_small (ht.trans ?_)
    nlinarith
  · have h2 := round_err (L.expA x)
    calc |round (L.expA x) - Real.exp x| = |(round (L.expA x) - L.expA x) + (L.expA x - Real.exp x)| := by ring_nf
      _ ≤ u * |L.expA x| + eta + 8 * u * Real.exp x := (abs_add_le _ _).trans (add_le_add h2 h1)
      _ ≤ u * ((1 + 8 * u) * Real.exp x) + eta + 8 * u * Real.exp x := by gcongr
      _ ≤ 10 * u * Real.exp x + eta := by nlinarith [mul_nonneg hu0.le he.le]
  · have := (abs_le.mp h1).1
    linarith

/-- An addition of moderate numbers. -/
theorem add_fin {a b : ℝ} (B : ℝ) (hB : B ≤ 10 ^ 20) (h : |a + b| ≤ B) :
    ∃ y, add (fin a) (fin b) = fin y ∧ |y - (a + b)| ≤ u * B + eta := by
  refine ⟨round (a + b), rnd_small (h.trans hB), (round_err _).trans ?_⟩
  have := u_pos
  gcongr

theorem sub_fin {a b : ℝ} (B : ℝ) (hB : B ≤ 10 ^ 20) (h : |a - b| ≤ B) :
    ∃ y, sub (fin a) (fin b) = fin y ∧ |y - (a - b)| ≤ u * B + eta := by
  have := add_fin (a := a) (b := -b) B hB (by rwa [← sub_eq_add_neg])
  simpa [sub, neg, ← sub_eq_add_neg] using this

theorem mul_fin {a b : ℝ} (B : ℝ) (hB : B ≤ 10 ^ 20) (h : |a * b| ≤ B) :
    ∃ y, mul (fin a) (fin b) = fin y ∧ |y - a * b| ≤ u * B + eta := by
  refine ⟨round (a * b), rnd_small (h.trans hB), (round_err _).trans ?_⟩
  have := u_pos
  gcongr

theorem div_fin {a b : ℝ} (B : ℝ) (hB : B ≤ 10 ^ 20) (hb : b ≠ 0) (h : |a / b| ≤ B) :
    ∃ y, div (fin a) (fin b) = fin y ∧ |y - a / b| ≤ u * B + eta := by
  refine ⟨round (a / b), ?_, (round_err _).trans ?_⟩
  · simp only [div, if_neg hb]
    exact rnd_small (h.trans hB)
  · have := u_pos
    gcongr

theorem log_ratio_le {e : ℝ} (he : |e| ≤ 999 / 1000) : |Real.log ((1 + e) / (1 - e))| ≤ 77 / 10 := by
  rw [abs_le] at he
  have h1 : 0 < 1 + e := by linarith
  have h2 : 0 < 1 - e := by linarith
  have h3 := Real.log_two_lt_d9
  have h4 : Real.log 2048 ≤ 77 / 10 := by
    rw [show (2048 : ℝ) = 2 ^ 11 by norm_num, Real.log_pow]; push_cast; linarith
  have hq : 0 < (1 + e) / (1 - e) := div_pos h1 h2
  rw [abs_le]; constructor
  · have h5 : Real.log (1 / 2048) ≤ Real.log ((1 + e) / (1 - e)) := by
      apply Real.log_le_log (by norm_num)
      rw [div_le_div_iff₀ (by norm_num) h2]; linarith
    rw [one_div, Real.log_inv] at h5
    linarith
  · have h5 : Real.log ((1 + e) / (1 - e)) ≤ Real.log 2048 := by
      apply Real.log_le_log hq
      rw [div_le_iff₀ h2]; linarith
    linarith

/-- The weight of a hypothesis is computed to fourteen digits. -/
theorem hypWeight_fin (L : Libm) {e : ℝ} (he : |e| ≤ 999 / 1000) :
    ∃ w, hypWeight L (fin e) = fin w ∧ |w - Real.log ((1 + e) / (1 - e)) / 2| ≤ 1 / 10 ^ 14 ∧ |w| ≤ 4 := by
  have hu := u_small
  have hu0 := u_pos
  have het := eta_le_aux
  have het0 := eta_pos
  have hlr := log_ratio_le he
  have he' := abs_le.mp he
  have hev : eta ≤ u * (1 / 10 ^ 6) := by
    refine het.trans ?_
    have : u * u * u ≤ 1 / 10 ^ 6 := by
      calc u * u * u ≤ (1 / 9000000000000000) * (1 / 9000000000000000) * (1 / 9000000000000000) := by gcongr
        _ ≤ _ := by norm_num
    nlinarith
  have ra := round_err (1 + e)
  have rb := round_err (1 - e)
  have h1 : 0 < 1 + e := by linarith
  have h2 : 0 < 1 - e := by linarith
  rw [abs_of_pos h1] at ra
  rw [abs_of_pos h2] at rb
  have ha : add (fin 1) (fin e) = fin (round (1 + e)) := rnd_small (by rw [abs_of_pos h1]; linarith)
  have hb : sub (fin 1) (fin e) = fin (round (1 - e)) := by
    have : sub (fin 1) (fin e) = rnd (1 + -e) := rfl
    rw [this, ← sub_eq_add_neg]
    exact rnd_small (by rw [abs_of_pos h2]; linarith)
  set a := round (1 + e)
  set b := round (1 - e)
  obtain ⟨ha0, hal⟩ := log_close (a := a) (b := 1 + e) (c := 2 * u) h1 (by linarith) (ra.trans (by nlinarith))
  obtain ⟨hb0, hbl⟩ := log_close (a := b) (b := 1 - e) (c := 2 * u) h2 (by linarith) (rb.trans (by nlinarith))
  have hqa : a / b ≤ 10 ^ 4 ∧ 1 / 10 ^ 4 ≤ a / b := by
    have := abs_le.mp ra
    have := abs_le.mp rb
    constructor
    · rw [div_le_iff₀ hb0]; nlinarith
    · rw [le_div_iff₀ hb0]; nlinarith
  have hq0 : 0 < a / b := div_pos ha0 hb0
  have hdiv : div (fin a) (fin b) = fin (round (a / b)) := by
    simp only [div, if_neg hb0.ne']
    exact rnd_small (by rw [abs_of_pos hq0]; linarith [hqa.1])
  have rq := round_err (a / b)
  rw [abs_of_pos hq0] at rq
  obtain ⟨hq, hql⟩ := log_close (a := round (a / b)) (b := a / b) (c := 2 * u) hq0 (by linarith) (rq.trans (by nlinarith [hqa.2]))
  set q := round (a / b)
  have hld : Real.log (a / b) = Real.log a - Real.log b := Real.log_div ha0.ne' hb0.ne'
  have hlr' : Real.log ((1 + e) / (1 - e)) = Real.log (1 + e) - Real.log (1 - e) := Real.log_div h1.ne' h2.ne'
  set ρ := Real.log ((1 + e) / (1 - e))
  have hqρ : |Real.log q - ρ| ≤ 12 * u := by
    have x1 := abs_le.mp hal
    have x2 := abs_le.mp hbl
    have x3 := abs_le.mp hql
    rw [abs_le]
    constructor <;> linarith
  have hql8 : |Real.log q| ≤ 78 / 10 := by
    have := abs_add_le (Real.log q - ρ) ρ
    rw [sub_add_cancel] at this
    linarith
  obtain ⟨y, hy, hye⟩ := ln_fin L hq (hql8.trans (by norm_num))
  have hyq : |y - Real.log q| ≤ 79 * u := hye.trans (by nlinarith)
  have hyρ : |y - ρ| ≤ 91 * u := by
    have := abs_add_le (y - Real.log q) (Real.log q - ρ)
    rw [sub_add_sub_cancel] at this
    linarith
  have hy8 : |y / 2| ≤ 39 / 10 := by
    rw [abs_div, abs_two]
    have := abs_add_le (y - ρ) ρ
    rw [sub_add_cancel] at this
    linarith
  obtain ⟨w, hw, hwe⟩ := div_fin (a := y) (b := 2) (39 / 10) (by norm_num) (by norm_num) hy8
  refine ⟨w, ?_, ?_, ?_⟩
  · rw [hypWeight, ha, hb, hdiv, hy, hw]
  · have h5 : |y / 2 - ρ / 2| ≤ 46 * u := by
      rw [← sub_div, abs_div, abs_two]; linarith
    have := abs_add_le (w - y / 2) (y / 2 - ρ / 2)
    rw [sub_add_sub_cancel] at this
    have h6 : u * (39 / 10) + eta + 46 * u ≤ 1 / 10 ^ 14 := by
      have : eta ≤ u := eta_le_u
      norm_num; linarith
    linarith
  · have := abs_add_le (w - y / 2) (y / 2)
    rw [sub_add_cancel] at this
    have : eta ≤ u := eta_le_u
    linarith

theorem log_two_eta : -(7445 / 10) ≤ Real.log (2 * eta) := by
  rw [← two_eta, Real.log_zpow]
  have := Real.log_two_lt_d9
  push_cast
  linarith

/-- The logarithm of a weight before the normalisation. -/
theorem logWeight_fin (L : Libm) {x w m : ℝ} (hx : 2 * eta ≤ x) (hx2 : x ≤ 2) (hw : |w| ≤ 4) (hm : |m| ≤ 1) :
    ∃ l, sub (ln L (fin x)) (mul (fin w) (fin m)) = fin l ∧ |l - (Real.log x - w * m)| ≤ 1 / 10 ^ 12 := by
  have hu := u_small
  have hu0 := u_pos
  have het := eta_le_u
  have hx0 : 0 < x := lt_of_lt_of_le (by have := eta_pos; linarith) hx
  have hl1 := Real.log_le_log (by have := eta_pos; linarith) hx
  have hl2 := Real.log_le_log hx0 hx2
  have h2 := Real.log_two_lt_d9
  have hl3 := log_two_eta
  have hlog : |Real.log x| ≤ 745 := abs_le.mpr ⟨by linarith, by linarith⟩
  obtain ⟨y, hy, hye⟩ := ln_fin L hx0 (hlog.trans (by norm_num))
  have hwm : |w * m| ≤ 4 := by rw [abs_mul]; nlinarith [abs_nonneg w, abs_nonneg m]
  obtain ⟨p, hp, hpe⟩ := mul_fin 4 (by norm_num) hwm
  have hye' : |y - Real.log x| ≤ 7451 * u := hye.trans (by nlinarith [abs_nonneg (Real.log x)])
  have hpe' : |p - w * m| ≤ 5 * u := hpe.trans (by linarith)
  have h1 := abs_le.mp hye'
  have h3 := abs_le.mp hpe'
  have h4 := abs_le.mp hlog
  have h5 := abs_le.mp hwm
  obtain ⟨l, hl, hle⟩ := sub_fin (a := y) (b := p) 760 (by norm_num) (abs_le.mpr ⟨by linarith, by linarith⟩)
  refine ⟨l, by rw [hy, hp, hl], ?_⟩
  have h6 := abs_le.mp hle
  rw [abs_le]
  constructor <;> linarith

theorem lse_lip {a b s : ℝ} (hs : 0 ≤ s) : |Real.log (Real.exp a + s) - Real.log (Real.exp b + s)| ≤ |a - b| := by
  have key : ∀ a b : ℝ, Real.log (Real.exp a + s) ≤ Real.log (Real.exp b + s) + |a - b| := by
    intro a b
    have hb := Real.exp_pos b
    have ha := Real.exp_pos a
    rw [← Real.log_exp |a - b|, ← Real.log_mul (by linarith) (Real.exp_pos _).ne']
    apply Real.log_le_log (by linarith)
    have h1 : Real.exp a ≤ Real.exp b * Real.exp |a - b| := by
      rw [← Real.exp_add]; apply Real.exp_le_exp.mpr; linarith [le_abs_self (a - b)]
    have h2 : 1 ≤ Real.exp |a - b| := Real.one_le_exp (abs_nonneg _)
    nlinarith
  rw [abs_le]
  have h1 := key a b
  have h2 := key b a
  rw [abs_sub_comm b a] at h2
  constructor <;> linarith

theorem logAddExp_aux (L : Libm) {a b : ℝ} (ha : |a| ≤ 760) (hb : |b| ≤ 760) (hab : a ≤ b) :
    ∃ c, add (fin b) (ln L (add (fin 1) (exp L (sub (fin a) (fin b))))) = fin c ∧
      |c - Real.log (Real.exp a + Real.exp b)| ≤ 1 / 10 ^ 12 := by
  have hu := u_small
  have hu0 := u_pos
  have het := eta_le_u
  have h1 := abs_le.mp ha
  have h2 := abs_le.mp hb
  obtain ⟨t, ht, hte⟩ := sub_fin (a := a) (b := b) 1520 (by norm_num) (abs_le.mpr ⟨by linarith, by linarith⟩)
  have h3 := abs_le.mp hte
  obtain ⟨E, hE, hEe, -⟩ := exp_fin L (x := t) (by linarith)
  have h4 : |Real.exp t - Real.exp (a - b)| ≤ 2 * (1521 * u) * Real.exp (a - b) := exp_close (by linarith) (hte.trans (by linarith))
  have h5 : Real.exp (a - b) ≤ 1 := Real.exp_le_one_iff.mpr (by linarith)
  have h50 := Real.exp_pos (a - b)
  have h6 : |Real.exp t - Real.exp (a - b)| ≤ 3042 * u := h4.trans (by nlinarith)
  have h7 := abs_le.mp h6
  have h8 : |E - Real.exp (a - b)| ≤ 3060 * u := by
    have h9 := abs_le.mp hEe
    rw [abs_le]; constructor <;> nlinarith
  have h9 := abs_le.mp h8
  obtain ⟨v, hv, hve⟩ := add_fin (a := 1) (b := E) 3 (by norm_num) (abs_le.mpr ⟨by linarith, by linarith⟩)
  have h10 : |v - (1 + Real.exp (a - b))| ≤ 3064 * u := by
    have h11 := abs_le.mp hve
    rw [abs_le]; constructor <;> linarith
  obtain ⟨hv0, hvl⟩ := log_close (a := v) (b := 1 + Real.exp (a - b)) (c := 3064 * u) (by linarith) (by linarith) (h10.trans (by nlinarith))
  have hl0 : 0 ≤ Real.log (1 + Real.exp (a - b)) := Real.log_nonneg (by linarith)
  have hl1 : Real.log (1 + Real.exp (a - b)) ≤ 7 / 10 := by
    have := Real.log_le_log (show 0 < 1 + Real.exp (a - b) by linarith) (show 1 + Real.exp (a - b) ≤ 2 by linarith)
    have := Real.log_two_lt_d9
    linarith
  have h12 := abs_le.mp hvl
  have hlv : |Real.log v| ≤ 1 := abs_le.mpr ⟨by linarith, by linarith⟩
  obtain ⟨y, hy, hye⟩ := ln_fin L hv0 (hlv.trans (by norm_num))
  have hye' : |y - Real.log v| ≤ 11 * u := hye.trans (by nlinarith [abs_nonneg (Real.log v)])
  have h13 := abs_le.mp hye'
  obtain ⟨c, hc, hce⟩ := add_fin (a := b) (b := y) 762 (by norm_num) (abs_le.mpr ⟨by linarith, by linarith⟩)
  refine ⟨c, by rw [ht, hE, hv, hy, hc], ?_⟩
  have hlog : Real.log (Real.exp a + Real.exp b) = b + Real.log (1 + Real.exp (a - b)) := by
    have hm : Real.exp a + Real.exp b = Real.exp b * (1 + Real.exp (a - b)) := by
      rw [mul_add, mul_one, ← Real.exp_add]; ring_nf
    rw [hm, Real.log_mul (Real.exp_pos b).ne' (by linarith), Real.log_exp]
  rw [hlog]
  have h14 := abs_le.mp hce
  rw [abs_le]
  constructor <;> linarith

/-- One step of the normaliser loop. -/
theorem logAddExp_fin (L : Libm) {a b : ℝ} (ha : |a| ≤ 760) (hb : |b| ≤ 760) :
    ∃ c, logAddExp L (fin a) (fin b) = fin c ∧ |c - Real.log (Real.exp a + Real.exp b)| ≤ 1 / 10 ^ 12 := by
  unfold logAddExp
  by_cases h : a < b
  · rw [if_pos (show Lt (fin a) (fin b) from h)]
    obtain ⟨c, h1, h2⟩ := logAddExp_aux L ha hb h.le
    exact ⟨c, h1, h2⟩
  · rw [if_neg (show ¬ Lt (fin a) (fin b) from h), add_comm (Real.exp a)]
    obtain ⟨c, h1, h2⟩ := logAddExp_aux L hb ha (not_lt.mp h)
    exact ⟨c, h1, h2⟩

end F64

end Miniboosts
