import Verif.Lemmas.FloatProjectRun

/-! # Rounding respects the representable numbers -/

namespace Miniboosts.F64

theorem rep_cases {a x : ℝ} (ha : Rep a) (hx : x ≠ 0) :
    (∃ k : ℤ, a = k * 2 ^ ulpExp x) ∨ (|a| < 2 ^ (ulpExp x + 52) ∧ (2 : ℝ) ^ (ulpExp x + 52) ≤ |x|) := by
  obtain ⟨k, j, hk, hj, rfl⟩ := ha
  set e := ulpExp x with he
  by_cases h : e ≤ j
  · left
    obtain ⟨n, hn⟩ := Int.eq_ofNat_of_zero_le (show 0 ≤ j - e by omega)
    refine ⟨k * 2 ^ n, ?_⟩
    have : j = (n : ℤ) + e := by omega
    rw [this, zpow_add₀ (by norm_num), zpow_natCast]
    push_cast; ring
  · right
    have h' : j < e := by omega
    have hlog : e = Int.log 2 |x| - 52 := by
      rw [he]; unfold ulpExp
      rcases max_cases (Int.log 2 |x| - 52) (-1074) with ⟨h1, _⟩ | ⟨h1, _⟩
      · exact h1
      · exfalso; rw [he] at h'; unfold ulpExp at h'; rw [h1] at h'; omega
    constructor
    · have hp := pow_ulp_pos j
      rw [abs_mul, abs_of_pos hp]
      have hk' : |(k : ℝ)| < 2 ^ 53 := by
        rw [← Int.cast_abs]; exact_mod_cast hk
      calc |(k : ℝ)| * 2 ^ j < 2 ^ 53 * 2 ^ j := mul_lt_mul_of_pos_right hk' hp
        _ = 2 ^ (53 + j) := by rw [zpow_add₀ (by norm_num)]; norm_num
        _ ≤ 2 ^ (e + 52) := zpow_le_zpow_right₀ (by norm_num) (by omega)
    · have := Int.zpow_log_le_self (b := 2) (r := |x|) (by norm_num) (abs_pos.mpr hx)
      rw [hlog, sub_add_cancel]
      exact_mod_cast this

/-- A representable number below `x` is below the rounding of `x`. -/
theorem rep_le_round {a x : ℝ} (ha : Rep a) (h : a ≤ x) : a ≤ round x := by
  by_cases hx : x = 0
  · rw [hx, round_zero]; rw [hx] at h; exact h
  have hp := pow_ulp_pos (ulpExp x)
  rcases rep_cases ha hx with ⟨k, hk⟩ | ⟨h1, h2⟩
  · have h3 : (k : ℝ) ≤ x / 2 ^ ulpExp x := by rw [le_div_iff₀ hp, ← hk]; exact h
    have h4 := le_roundEven h3
    rw [hk]
    exact mul_le_mul_of_nonneg_right (by exact_mod_cast h4) hp.le
  · have hx0 : 0 < x := by
      by_contra h5
      rw [abs_of_nonpos (not_lt.mp h5)] at h2
      rw [abs_of_nonpos (h.trans (not_lt.mp h5))] at h1
      linarith
    rw [abs_of_pos hx0] at h2
    have e : (2 : ℝ) ^ (ulpExp x + 52) = ((2 ^ 52 : ℤ) : ℝ) * 2 ^ ulpExp x := by rw [zpow_add₀ (by norm_num)]; push_cast; norm_num; ring
    have h3 : (((2 : ℤ) ^ 52 : ℤ) : ℝ) ≤ x / 2 ^ ulpExp x := by rw [le_div_iff₀ hp, ← e]; exact h2
    have h4 := le_roundEven h3
    have h5 : (2 : ℝ) ^ (ulpExp x + 52) ≤ round x := by
      rw [e]; exact mul_le_mul_of_nonneg_right (by exact_mod_cast h4) hp.le
    linarith [le_abs_self a]

/-- A representable number above `x` is above the rounding of `x`. -/
theorem round_le_rep {a x : ℝ} (ha : Rep a) (h : x ≤ a) : round x ≤ a := by
  by_cases hx : x = 0
  · rw [hx, round_zero]; rw [hx] at h; exact h
  have hp := pow_ulp_pos (ulpExp x)
  rcases rep_cases ha hx with ⟨k, hk⟩ | ⟨h1, h2⟩
  · have h3 : x / 2 ^ ulpExp x ≤ (k : ℝ) := by rw [div_le_iff₀ hp, ← hk]; exact h
    have h4 := roundEven_le h3
    rw [hk]
    exact mul_le_mul_of_nonneg_right (by exact_mod_cast h4) hp.le
  · have hx0 : x < 0 := by
      by_contra h5
      rw [abs_of_nonneg (not_lt.mp h5)] at h2
      rw [abs_of_nonneg ((not_lt.mp h5).trans h)] at h1
      linarith
    rw [abs_of_neg hx0] at h2
    have e : -(2 : ℝ) ^ (ulpExp x + 52) = ((-2 ^ 52 : ℤ) : ℝ) * 2 ^ ulpExp x := by rw [zpow_add₀ (by norm_num)]; push_cast; norm_num; ring
    have h3 : x / 2 ^ ulpExp x ≤ ((-(2 : ℤ) ^ 52 : ℤ) : ℝ) := by rw [div_le_iff₀ hp, ← e]; linarith
    have h4 := roundEven_le h3
    have h5 : round x ≤ -(2 : ℝ) ^ (ulpExp x + 52) := by
      rw [e]; exact mul_le_mul_of_nonneg_right (by exact_mod_cast h4) hp.le
    linarith [neg_abs_le a]

theorem exp_nonneg (L : Libm) {t E : ℝ} (h : exp L (fin t) = fin E) : 0 ≤ E := by
  have h7 : 0 ≤ L.expA t := by
    have h8 := abs_le.mp (L.exp_err t)
    rw [pow50] at h8
    have hu := u_small
    have := Real.exp_pos t
    have h9 : 8 * u * Real.exp t ≤ 1 * Real.exp t := mul_le_mul_of_nonneg_right (by linarith only [hu]) this.le
    linarith only [h8.1, h9]
  simp only [exp, rnd] at h
  split at h
  · cases h
  · cases h; exact round_nonneg h7

/-- The computed log-sum-exp is at least the larger of the two. -/
theorem logAdd_ge (L : Libm) {a b c : ℝ} (ha : |a| ≤ 10020) (hb : |b| ≤ 10020) (hab : a ≤ b) (hr : Rep b)
    (h : add (fin b) (ln L (add (fin 1) (exp L (sub (fin a) (fin b))))) = fin c) : b ≤ c ∧ Rep c := by
  have hu := u_small
  have hu0 := u_pos
  have het := eta_le_u
  have h1 := abs_le.mp ha
  have h2 := abs_le.mp hb
  obtain ⟨t, ht, hte⟩ := sub_fin (a := a) (b := b) 20040 (by norm_num) (abs_le.mpr ⟨by linarith, by linarith⟩)
  have h3 := abs_le.mp hte
  obtain ⟨E, hE, hEe, -⟩ := exp_fin L (x := t) (by linarith)
  have hE0 := exp_nonneg L hE
  have hE1 : E ≤ 4 := by
    have h4 : Real.exp t ≤ Real.exp 1 := Real.exp_le_exp.mpr (by linarith)
    have h5 := Real.exp_one_lt_d9
    have h6 := (abs_le.mp hEe).2
    have h7 : 10 * u * Real.exp t ≤ 10 * u * Real.exp 1 := mul_le_mul_of_nonneg_left h4 (by positivity)
    nlinarith
  have hv : add (fin 1) (fin E) = fin (round (1 + E)) := rnd_small (by rw [abs_of_pos (by linarith)]; linarith)
  have hv1 : 1 ≤ round (1 + E) := rep_le_round ⟨1, 0, by norm_num, by norm_num, by norm_num⟩ (by linarith)
  have hv2 : round (1 + E) ≤ 10 := round_le_rep ⟨10, 0, by norm_num, by norm_num, by norm_num⟩ (by linarith)
  set v := round (1 + E)
  have hl0 : 0 ≤ Real.log v := Real.log_nonneg hv1
  have hl1 : Real.log v ≤ 9 := by have := Real.log_le_sub_one_of_pos (show 0 < v by linarith); linarith
  have hly := abs_le.mp (L.ln_err v (by linarith))
  rw [pow50, abs_of_nonneg hl0] at hly
  have hy0 : 0 ≤ L.lnA v := by nlinarith
  have hy1 : L.lnA v ≤ 18 := by nlinarith
  have hln : ln L (fin v) = fin (round (L.lnA v)) := by
    simp only [ln]
    rw [if_pos (by linarith)]
    exact rnd_small (by rw [abs_of_nonneg hy0]; linarith)
  have hr0 : 0 ≤ round (L.lnA v) := round_nonneg hy0
  have hr1 : round (L.lnA v) ≤ 18 := round_le_rep ⟨18, 0, by norm_num, by norm_num, by norm_num⟩ hy1
  rw [ht, hE, hv, hln] at h
  have h9 : add (fin b) (fin (round (L.lnA v))) = fin (round (b + round (L.lnA v))) :=
    rnd_small (abs_le.mpr ⟨by linarith, by linarith⟩)
  rw [h9] at h
  cases h
  exact ⟨rep_le_round hr (by linarith), rep_round _⟩

/-- The computed sums are at least every one of the logarithms. -/
theorem suffix_ge (L : Libm) : ∀ (xs : List ℝ), xs ≠ [] → (∀ x ∈ xs, |x| ≤ 10 ^ 4) → (∀ x ∈ xs, Rep x) → xs.length ≤ 10 ^ 5 →
    ∃ s, (suffixLogSums L (xs.map fin)).headD nan = fin s ∧ Rep s ∧ ∀ x ∈ xs, x ≤ s := by
  intro xs
  induction xs with
  | nil => intro h; exact absurd rfl h
  | cons a xs ih =>
    intro _ hx hrep hl
    cases xs with
    | nil => exact ⟨a, rfl, hrep a (by simp), by simp⟩
    | cons b xs =>
      have hx' : ∀ y ∈ b :: xs, |y| ≤ 10 ^ 4 := fun y hy => hx y (List.mem_cons_of_mem _ hy)
      have hl' : (b :: xs).length ≤ 10 ^ 5 := by simp at hl ⊢; omega
      obtain ⟨s, h1, hs, hge⟩ := ih (by simp) hx' (fun y hy => hrep y (List.mem_cons_of_mem _ hy)) hl'
      obtain ⟨s', h1', h2⟩ := suffix_fin L (b :: xs) (by simp) hx' hl'
      have e : s' = s := by rw [h1] at h1'; cases h1'; rfl
      rw [e] at h2
      obtain ⟨c, hc, -⟩ := suffix_fin L (a :: b :: xs) (by simp) hx hl
      have hb := log_lsum_bound (b :: xs) (by simp) hx' hl'
      have hlen : ((b :: xs).length : ℝ) ≤ 10 ^ 5 := by exact_mod_cast hl'
      have hsb : |s| ≤ 10020 := by
        have := abs_add_le (s - Real.log ((b :: xs).map Real.exp).sum) (Real.log ((b :: xs).map Real.exp).sum)
        rw [sub_add_cancel] at this
        have h3 : 11 / 10 ^ 12 * ((b :: xs).length : ℝ) ≤ 1 := by nlinarith
        linarith
      have ha : |a| ≤ 10020 := (hx a (by simp)).trans (by norm_num)
      have hhead : (suffixLogSums L (((b :: xs).map fin))).head? = some (fin s) := by
        rw [← h1]; rfl
      have hcons : (suffixLogSums L ((a :: b :: xs).map fin)).headD nan =
          add (maxNum (fin s) (fin a)) (ln L (add (fin 1) (exp L (sub (minNum (fin s) (fin a)) (maxNum (fin s) (fin a)))))) := by
        rw [List.map_cons, suffixLogSums]
        simp only [hhead, List.headD_cons]
      have hcc := hc
      rw [hcons, maxNum_fin, minNum_fin] at hcc
      have key : max s a ≤ c ∧ Rep c := by
        rcases le_total s a with h | h
        · rw [max_eq_right h, min_eq_left h] at *; exact logAdd_ge L hsb ha h (hrep a (by simp)) hcc
        · rw [max_eq_left h, min_eq_right h] at *; exact logAdd_ge L ha hsb h hs hcc
      refine ⟨c, hc, key.2, ?_⟩
      intro x hxm
      rcases List.mem_cons.1 hxm with rfl | hxm
      · exact (le_max_right _ _).trans key.1
      · exact (hge x hxm).trans ((le_max_left _ _).trans key.1)

end Miniboosts.F64
