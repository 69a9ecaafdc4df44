import Verif.Lemmas.Basic
import Verif.Spec.Basic
import Mathlib.Analysis.SpecialFunctions.Sqrt
import Mathlib.Analysis.Convex.SpecificFunctions.Basic
import Mathlib.Analysis.SpecialFunctions.Log.Deriv
import Mathlib.Analysis.Calculus.Deriv.MeanValue

/-! Helper lemmas for AdaBoost and AdaBoostV. -/

namespace Miniboosts

open Real

variable {H X : Type*}

theorem weightedConf_append {K : Type*} [Field K] [LinearOrder K] [Classifier H X K] (ws : List K)
    (hs : List H) (hlen : ws.length = hs.length) (w : K) (h : H) (x : X) :
    weightedConf (ws ++ [w]) (hs ++ [h]) x = weightedConf ws hs x + w * conf h x := by
  unfold weightedConf
  rw [List.zipWith_append hlen]
  simp

/-- The total exponential loss. -/
noncomputable def expLoss (S : Examples X ℝ) (F : X → ℝ) : ℝ :=
  (S.map fun e => exp (-(e.2 * F e.1))).sum

theorem expLoss_pos (S : Examples X ℝ) (hS : S ≠ []) (F : X → ℝ) : 0 < expLoss S F :=
  sum_map_pos S _ hS (fun _ _ => exp_pos _)

theorem expWeights_eq (S : Examples X ℝ) (F : X → ℝ) :
    Spec.expWeights S F = S.map fun e => exp (-(e.2 * F e.1)) / expLoss S F := rfl

theorem expWeights_posProb (S : Examples X ℝ) (hS : S ≠ []) (F : X → ℝ) :
    Spec.IsPosProb (Spec.expWeights S F) := by
  have hp := expLoss_pos S hS F
  constructor
  · intro p hp'
    rw [expWeights_eq] at hp'
    obtain ⟨e, _, rfl⟩ := List.mem_map.1 hp'
    exact div_pos (exp_pos _) hp
  · rw [expWeights_eq, sum_map_div]
    exact div_self hp.ne'

/-- Reweighting exponential weights gives exponential weights of the extended vote. -/
theorem reweight_expWeights (S : Examples X ℝ) (hS : S ≠ []) (F g : X → ℝ) (w : ℝ) :
    reweight (Spec.expWeights S F) (S.map fun e => e.2 * g e.1) w =
      .ok (Spec.expWeights S fun x => F x + w * g x) := by
  have hp := expLoss_pos S hS F
  rw [expWeights_eq, reweight_map S hS _ _ (fun e _ => div_pos (exp_pos _) hp), expWeights_eq]
  have key : ∀ e : X × ℝ, exp (-(e.2 * F e.1)) / expLoss S F * exp (-(w * (e.2 * g e.1))) =
      exp (-(e.2 * (F e.1 + w * g e.1))) / expLoss S F := by
    intro e
    rw [div_mul_eq_mul_div, ← exp_add]; congr 2; ring
  simp only [key, sum_map_div]
  congr 1
  apply List.map_congr_left
  intro e _
  rw [div_div_div_cancel_right₀ hp.ne']
  rfl

/-- `Z(F + w g) = Z(F) * Σ_i d_i exp(-w y_i g(x_i))` where `d` are the exponential weights. -/
theorem expLoss_add (S : Examples X ℝ) (hS : S ≠ []) (F g : X → ℝ) (w : ℝ) :
    expLoss S (fun x => F x + w * g x) =
      expLoss S F * (S.map fun e => exp (-(e.2 * F e.1)) / expLoss S F *
        exp (-(w * (e.2 * g e.1)))).sum := by
  have hp := expLoss_pos S hS F
  rw [← sum_map_mul_left']
  unfold expLoss
  congr 1
  apply List.map_congr_left
  intro e _
  rw [div_mul_eq_mul_div, ← exp_add, mul_div_cancel₀ _ (by exact hp.ne')]
  congr 1; ring

theorem exp_convex_bound (a p : ℝ) (h1 : -1 ≤ p) (h2 : p ≤ 1) :
    exp (-(a * p)) ≤ (1 + p) / 2 * exp (-a) + (1 - p) / 2 * exp a := by
  have := (convexOn_exp).2 (Set.mem_univ (-a)) (Set.mem_univ a)
    (show 0 ≤ (1 + p) / 2 by linarith) (show 0 ≤ (1 - p) / 2 by linarith) (by ring)
  simp only [smul_eq_mul] at this
  refine le_trans (le_of_eq ?_) this
  congr 1; ring

/-- One boosting step on the exponential loss, for confidence-rated hypotheses. -/
theorem expLoss_step (S : Examples X ℝ) (hS : S ≠ []) (F g : X → ℝ) (w γ : ℝ)
    (hg : ∀ e ∈ S, |e.2 * g e.1| ≤ 1)
    (hγ : (S.map fun e => exp (-(e.2 * F e.1)) / expLoss S F * (e.2 * g e.1)).sum = γ) :
    expLoss S (fun x => F x + w * g x) ≤
      expLoss S F * ((1 + γ) / 2 * exp (-w) + (1 - γ) / 2 * exp w) := by
  have hp := expLoss_pos S hS F
  rw [expLoss_add S hS]
  apply mul_le_mul_of_nonneg_left _ hp.le
  have h1 : (S.map fun e => exp (-(e.2 * F e.1)) / expLoss S F).sum = 1 := by
    rw [sum_map_div]; exact div_self hp.ne'
  calc _ ≤ (S.map fun e => (exp (-(e.2 * F e.1)) / expLoss S F) * (exp (-w) / 2 + exp w / 2) +
        (exp (-w) / 2 - exp w / 2) *
          (exp (-(e.2 * F e.1)) / expLoss S F * (e.2 * g e.1))).sum := by
        apply sum_map_le
        intro e he
        have hb := abs_le.1 (hg e he)
        have := exp_convex_bound w (e.2 * g e.1) hb.1 hb.2
        have hd : 0 ≤ exp (-(e.2 * F e.1)) / expLoss S F := (div_pos (exp_pos _) hp).le
        calc _ ≤ exp (-(e.2 * F e.1)) / expLoss S F * _ := mul_le_mul_of_nonneg_left this hd
          _ = _ := by ring
    _ = _ := by
        rw [sum_map_add', sum_map_mul_left', hγ]
        have : (S.map fun e => (exp (-(e.2 * F e.1)) / expLoss S F) *
            (exp (-w) / 2 + exp w / 2)).sum = exp (-w) / 2 + exp w / 2 := by
          calc _ = (S.map fun e => (exp (-w) / 2 + exp w / 2) *
              (exp (-(e.2 * F e.1)) / expLoss S F)).sum := by
                congr 1; apply List.map_congr_left; intro e _; ring
            _ = _ := by rw [sum_map_mul_left', h1, mul_one]
        rw [this]; ring

/-- Equality version for `±1` margins. -/
theorem expLoss_step_eq (S : Examples X ℝ) (hS : S ≠ []) (F g : X → ℝ) (w γ : ℝ)
    (hg : ∀ e ∈ S, e.2 * g e.1 = 1 ∨ e.2 * g e.1 = -1)
    (hγ : (S.map fun e => exp (-(e.2 * F e.1)) / expLoss S F * (e.2 * g e.1)).sum = γ) :
    expLoss S (fun x => F x + w * g x) =
      expLoss S F * ((1 + γ) / 2 * exp (-w) + (1 - γ) / 2 * exp w) := by
  have hp := expLoss_pos S hS F
  rw [expLoss_add S hS]
  congr 1
  have h1 : (S.map fun e => exp (-(e.2 * F e.1)) / expLoss S F).sum = 1 := by
    rw [sum_map_div]; exact div_self hp.ne'
  calc _ = (S.map fun e => (exp (-w) / 2 + exp w / 2) * (exp (-(e.2 * F e.1)) / expLoss S F) +
        (exp (-w) / 2 - exp w / 2) *
          (exp (-(e.2 * F e.1)) / expLoss S F * (e.2 * g e.1))).sum := by
        congr 1
        apply List.map_congr_left
        intro e he
        rcases hg e he with h | h
        · rw [h, mul_one]; ring
        · rw [h, mul_neg, mul_one, neg_neg]; ring
    _ = _ := by rw [sum_map_add', sum_map_mul_left', sum_map_mul_left', hγ, h1]; ring

namespace AdaBoost

theorem exp_hypWeight {γ : ℝ} (h : |γ| < 1) : exp (hypWeight γ) = √((1 + γ) / (1 - γ)) := by
  have := abs_lt.1 h
  have hq : 0 < (1 + γ) / (1 - γ) := div_pos (by linarith) (by linarith)
  unfold hypWeight
  rw [sqrt_eq_rpow, rpow_def_of_pos hq]
  congr 1; ring

theorem exp_neg_hypWeight {γ : ℝ} (h : |γ| < 1) : exp (-hypWeight γ) = √((1 - γ) / (1 + γ)) := by
  rw [exp_neg, exp_hypWeight h, ← sqrt_inv, inv_div]

theorem hypWeight_pos {γ : ℝ} (h0 : 0 < γ) (h1 : γ < 1) : 0 < hypWeight γ := by
  unfold hypWeight
  have : 1 < (1 + γ) / (1 - γ) := by rw [lt_div_iff₀ (by linarith)]; linarith
  have := log_pos this
  linarith

theorem hypWeight_neg {γ : ℝ} : hypWeight (-γ) = - hypWeight γ := by
  unfold hypWeight
  rw [← neg_div, ← log_inv, inv_div]
  congr 2; ring

theorem hypWeight_zero : hypWeight 0 = 0 := by simp [hypWeight]

theorem hypWeight_pos_iff {γ : ℝ} (h : |γ| < 1) : 0 < hypWeight γ ↔ 0 < γ := by
  have hb := abs_lt.1 h
  constructor
  · intro hp
    by_contra hn
    rcases eq_or_lt_of_le (not_lt.1 hn) with h0 | h0
    · rw [h0, hypWeight_zero] at hp; exact lt_irrefl _ hp
    · have := hypWeight_pos (γ := -γ) (by linarith) (by linarith)
      rw [hypWeight_neg] at this; linarith
  · intro hp; exact hypWeight_pos hp hb.2

theorem step_factor {γ : ℝ} (h : |γ| < 1) :
    (1 + γ) / 2 * exp (-hypWeight γ) + (1 - γ) / 2 * exp (hypWeight γ) = √(1 - γ ^ 2) := by
  have hb := abs_lt.1 h
  have h1 : 0 < 1 + γ := by linarith
  have h2 : 0 < 1 - γ := by linarith
  rw [exp_hypWeight h, exp_neg_hypWeight h, sqrt_div h1.le, sqrt_div h2.le,
    show 1 - γ ^ 2 = (1 + γ) * (1 - γ) by ring, sqrt_mul h1.le]
  have e1 := sq_sqrt h1.le
  have e2 := sq_sqrt h2.le
  have p1 := sqrt_pos.2 h1
  have p2 := sqrt_pos.2 h2
  rw [eq_comm]
  field_simp
  nlinarith

theorem sqrt_one_sub_sq_le (γ : ℝ) : √(1 - γ ^ 2) ≤ exp (-(γ ^ 2 / 2)) := by
  have h1 : 1 - γ ^ 2 ≤ exp (-(γ ^ 2)) := by
    have := add_one_le_exp (-(γ ^ 2)); linarith
  calc √(1 - γ ^ 2) ≤ √(exp (-(γ ^ 2))) := sqrt_le_sqrt h1
    _ = exp (-(γ ^ 2 / 2)) := by
      rw [← exp_half]; congr 1; ring

end AdaBoost

end Miniboosts
