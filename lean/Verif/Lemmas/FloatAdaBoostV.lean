import Verif.Lemmas.RoundingVote
import Verif.Lemmas.AdaBoostV
import Verif.Model.FloatAdaBoostV

/-! # One round of AdaBoostV in `f64` -/

namespace Miniboosts

namespace F64

theorem sum_sub_edge (P : List (ℝ × ℝ)) (hx : ∀ p ∈ P, 0 ≤ p.1) (hm : ∀ p ∈ P, |p.2| ≤ 1) :
    0 ≤ (P.map Prod.fst).sum - (P.map fun p => p.2 * p.1).sum ∧ 0 ≤ (P.map Prod.fst).sum + (P.map fun p => p.2 * p.1).sum := by
  induction P with
  | nil => simp
  | cons p P ih =>
    obtain ⟨h1, h2⟩ := ih (fun q hq => hx q (by simp [hq])) fun q hq => hm q (by simp [hq])
    have h3 := hx p (by simp)
    have h4 := abs_le.mp (hm p (by simp))
    simp only [List.map_cons, List.sum_cons]
    constructor
    · nlinarith [mul_nonneg h3 (show 0 ≤ 1 - p.2 by linarith)]
    · nlinarith [mul_nonneg h3 (show 0 ≤ 1 + p.2 by linarith)]

/-- With a vote between zero and that of AdaBoost no weight is more than halved. -/
theorem norm_bound_le (P : List (ℝ × ℝ)) {e w : ℝ} (he0 : 0 ≤ e) (he : e ≤ 999 / 1000) (hw0 : 0 ≤ w) (hw : w ≤ AdaBoost.hypWeight e + 1 / 10 ^ 13)
    (hx : ∀ p ∈ P, 0 ≤ p.1) (hm : ∀ p ∈ P, |p.2| ≤ 1) (hs : (P.map Prod.fst).sum ≤ 1 + 25 / 10 ^ 8)
    (hE : |(P.map fun p => p.2 * p.1).sum - e| ≤ 1 / 10 ^ 9) :
    (P.map fun p => p.1 * Real.exp (-(w * p.2))).sum * Real.exp |w| ≤ 19996 / 10000 := by
  have hZ := chord_sum P (w := w) hx hm
  have hSE := sum_sub_edge P hx hm
  generalize (P.map Prod.fst).sum = S at *
  generalize (P.map fun p => p.2 * p.1).sum = E at *
  have hE' := abs_le.mp hE
  have h1 : 0 < 1 + e := by linarith
  have h2 : 0 < 1 - e := by linarith
  set r := (1 + e) / (1 - e) with hr
  have hr0 : 0 < r := div_pos h1 h2
  have hre : r * (1 - e) = 1 + e := by rw [hr]; field_simp
  have hr1 : r ≤ 1999 := by rw [hr, div_le_iff₀ h2]; linarith
  have hpos : 0 < Real.exp w := Real.exp_pos w
  have hneg : 0 < Real.exp (-w) := Real.exp_pos _
  rw [abs_of_nonneg hw0]
  have hm1 : Real.exp (-w) * Real.exp w = 1 := by rw [← Real.exp_add]; simp
  have hm2 : Real.exp w * Real.exp w ≤ r * (1 + 4 / 10 ^ 13) := by
    rw [← Real.exp_add]
    have h3 := exp_close (x := Real.log r + 2 / 10 ^ 13) (y := Real.log r) (c := 2 / 10 ^ 13) (by norm_num) (by rw [add_sub_cancel_left, abs_of_pos (by norm_num)])
    rw [Real.exp_log hr0] at h3
    have h4 := (abs_le.mp h3).2
    have h5 : Real.exp (w + w) ≤ Real.exp (Real.log r + 2 / 10 ^ 13) := by
      apply Real.exp_le_exp.mpr
      unfold AdaBoost.hypWeight at hw
      linarith
    linarith
  have h3 : S - E ≤ 1 - e + 26 / 10 ^ 8 := by linarith
  have h4 : 0 ≤ (S - E) / 2 := by linarith [hSE.1]
  calc _ ≤ ((S + E) / 2 * Real.exp (-w) + (S - E) / 2 * Real.exp w) * Real.exp w := by gcongr
    _ = (S + E) / 2 * (Real.exp (-w) * Real.exp w) + (S - E) / 2 * (Real.exp w * Real.exp w) := by ring
    _ ≤ (S + E) / 2 * 1 + (S - E) / 2 * (r * (1 + 4 / 10 ^ 13)) := by rw [hm1]; gcongr
    _ ≤ (S + E) / 2 * 1 + (1 - e + 26 / 10 ^ 8) / 2 * (r * (1 + 4 / 10 ^ 13)) := by gcongr
    _ = (S + E) / 2 + (r * (1 - e) + 26 / 10 ^ 8 * r) / 2 * (1 + 4 / 10 ^ 13) := by ring
    _ ≤ _ := by rw [hre]; linarith

/-- The potential in one round. -/
theorem norm_bound_target (P : List (ℝ × ℝ)) {e w ρ : ℝ} (hρ : 0 ≤ ρ) (hρe : ρ ≤ e) (he : e ≤ 9501 / 10000)
    (hw : |w - (AdaBoost.hypWeight e - AdaBoost.hypWeight ρ)| ≤ 1 / 10 ^ 13) (hx : ∀ p ∈ P, 0 ≤ p.1) (hm : ∀ p ∈ P, |p.2| ≤ 1)
    (hs : (P.map Prod.fst).sum ≤ 1 + 25 / 10 ^ 8) (hE : |(P.map fun p => p.2 * p.1).sum - e| ≤ 1 / 10 ^ 9) :
    (P.map fun p => p.1 * Real.exp (-(w * p.2))).sum * Real.exp (ρ * w) ≤ (1 + 6 / 10 ^ 6) * Real.exp (-((e - ρ) ^ 2 / 2)) := by
  have hZ := chord_sum P (w := w) hx hm
  have hSE := sum_sub_edge P hx hm
  generalize (P.map Prod.fst).sum = S at *
  generalize (P.map fun p => p.2 * p.1).sum = E at *
  have hE' := abs_le.mp hE
  have hw' := abs_le.mp hw
  have hf := step_factorV (ρ := ρ) (γ := e) (by linarith) hρe (by linarith)
  generalize AdaBoost.hypWeight e - AdaBoost.hypWeight ρ = v at *
  have hv1 := exp_close (x := w) (y := v) (c := 1 / 10 ^ 13) (by norm_num) hw
  have hv2 := exp_close (x := -w) (y := -v) (c := 1 / 10 ^ 13) (by norm_num) (by rw [← abs_neg]; convert hw using 2; ring)
  have hv3 := exp_close (x := ρ * w) (y := ρ * v) (c := 1 / 10 ^ 13) (by norm_num) (by
    rw [← mul_sub, abs_mul, abs_of_nonneg hρ]
    nlinarith [abs_nonneg (w - v)])
  have g1 := (abs_le.mp hv1).2
  have g2 := (abs_le.mp hv2).2
  have g3 := (abs_le.mp hv3).2
  have p1 := Real.exp_pos v
  have p2 := Real.exp_pos (-v)
  have p3 := Real.exp_pos (ρ * v)
  have p4 := Real.exp_pos w
  have p5 := Real.exp_pos (-w)
  have p6 := Real.exp_pos (ρ * w)
  have a1 : (S + E) / 2 ≤ (1 + 55 / 10 ^ 7) * ((1 + e) / 2) := by linarith
  have a2 : (S - E) / 2 ≤ (1 + 55 / 10 ^ 7) * ((1 - e) / 2) := by linarith
  have b1 : Real.exp (-w) ≤ (1 + 2 / 10 ^ 13) * Real.exp (-v) := by linarith
  have b2 : Real.exp w ≤ (1 + 2 / 10 ^ 13) * Real.exp v := by linarith
  have b3 : Real.exp (ρ * w) ≤ (1 + 2 / 10 ^ 13) * Real.exp (ρ * v) := by linarith
  have h1 : 0 ≤ 1 + e := by linarith
  have h2 : 0 ≤ 1 - e := by linarith
  set Y := ((1 + e) / 2 * Real.exp (-v) + (1 - e) / 2 * Real.exp v) * Real.exp (ρ * v) with hY
  have hY0 : 0 ≤ Y := by positivity
  calc _ ≤ ((S + E) / 2 * Real.exp (-w) + (S - E) / 2 * Real.exp w) * Real.exp (ρ * w) := by gcongr
    _ ≤ ((1 + 55 / 10 ^ 7) * ((1 + e) / 2) * ((1 + 2 / 10 ^ 13) * Real.exp (-v)) + (1 + 55 / 10 ^ 7) * ((1 - e) / 2) * ((1 + 2 / 10 ^ 13) * Real.exp v)) *
        ((1 + 2 / 10 ^ 13) * Real.exp (ρ * v)) := by
          gcongr
    _ = (1 + 55 / 10 ^ 7) * (1 + 2 / 10 ^ 13) * (1 + 2 / 10 ^ 13) * Y := by rw [hY]; ring
    _ ≤ (1 + 6 / 10 ^ 6) * Y := by gcongr; norm_num
    _ ≤ _ := by gcongr

/-- The vote as it is computed. -/
theorem voteV_fin (L : Libm) {e ρ : ℝ} (hρ : 0 ≤ ρ) (hρe : ρ ≤ e) (he : e ≤ 999 / 1000) :
    ∃ w, AdaBoostVF.vote L (fin e) (fin ρ) = fin w ∧ |w - (AdaBoost.hypWeight e - AdaBoost.hypWeight ρ)| ≤ 5 / 10 ^ 14 ∧ w ≤ 4 ∧ e - ρ - 5 / 10 ^ 14 ≤ w := by
  obtain ⟨a, ha, hae, ha4⟩ := hypWeight_fin L (e := e) (abs_le.mpr ⟨by linarith, he⟩)
  obtain ⟨b, hb, hbe, hb4⟩ := hypWeight_fin L (e := ρ) (abs_le.mpr ⟨by linarith, by linarith⟩)
  have hm := hypWeight_sub_ge (ρ := ρ) (γ := e) (by linarith) hρe (by linarith)
  have hz := hypWeight_sub_ge (ρ := 0) (γ := ρ) (by linarith) hρ (by linarith)
  have h0 : AdaBoost.hypWeight 0 = 0 := by simp [AdaBoost.hypWeight]
  have hle := log_ratio_le (e := e) (abs_le.mpr ⟨by linarith, he⟩)
  have hue : AdaBoost.hypWeight e ≤ 77 / 20 := by
    unfold AdaBoost.hypWeight
    linarith [(abs_le.mp hle).2]
  change |a - AdaBoost.hypWeight e| ≤ _ at hae
  change |b - AdaBoost.hypWeight ρ| ≤ _ at hbe
  have hae' := abs_le.mp hae
  have hbe' := abs_le.mp hbe
  have h4 := abs_le.mp ha4
  have h5 := abs_le.mp hb4
  obtain ⟨w, hw, hwe⟩ := sub_fin (a := a) (b := b) 8 (by norm_num) (abs_le.mpr ⟨by linarith, by linarith⟩)
  have hu := u_small
  have het := eta_tiny
  have hwe' := abs_le.mp hwe
  refine ⟨w, by unfold AdaBoostVF.vote; rw [ha, hb, hw], ?_, ?_, ?_⟩
  · rw [abs_le]; constructor <;> linarith
  · linarith
  · linarith

end F64

end Miniboosts
