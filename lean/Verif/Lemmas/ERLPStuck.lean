import Verif.Lemmas.ERLPBoost
import Mathlib.Analysis.SpecialFunctions.Log.Deriv
import Mathlib.Analysis.Complex.ExponentialBounds

/-! # The inner loop of ERLPBoost can be stuck

Twenty examples.  When an example has weight zero in the solution of the first program, the later programs cannot
move it: the curvature `1/(EPS η)` of the expansion keeps it at zero. -/

namespace Miniboosts.ERLP.Stuck

open Real Finset LP

theorem eps_small : eps ≤ 1 / 10 ^ 100 := le_refl _

theorem log_ten_le : log 10 ≤ 24 / 10 := by
  have h : (10 : ℝ) = 2 ^ 4 * (625 / 1000) := by norm_num
  rw [h, log_mul (by norm_num) (by norm_num), log_pow]
  have h1 := log_two_lt_d9
  have h2 := log_le_sub_one_of_pos (x := (625 / 1000 : ℝ)) (by norm_num)
  push_cast
  linarith

theorem log_eps_ge : -240 ≤ log eps := by
  unfold eps
  rw [one_div, log_inv, log_pow]
  have := log_ten_le
  push_cast
  linarith

theorem log_twenty_bounds : 297 / 100 ≤ log 20 ∧ log 20 ≤ 303 / 100 := by
  have h : (20 : ℝ) = 2 ^ 4 * (5 / 4) := by norm_num
  rw [h, log_mul (by norm_num) (by norm_num), log_pow]
  have h1 := log_two_lt_d9
  have h2 := log_two_gt_d9
  have h3 := log_le_sub_one_of_pos (x := (5 / 4 : ℝ)) (by norm_num)
  have h4 := one_sub_inv_le_log_of_pos (x := (5 / 4 : ℝ)) (by norm_num)
  push_cast
  constructor
  · norm_num at h4 ⊢; linarith
  · norm_num at h3 ⊢; linarith

/-- An example that carries weight. -/
theorem coord_support {η v c m L d δ : ℝ} (hη : 0 < η) (hv : 1 / 5 ≤ v) (hv1 : v ≤ 1) (hc : |c - v| ≤ δ) (hδ : δ ≤ 1 / 100)
    (hd0 : 0 ≤ d) (hd1 : d ≤ 1) (hL : m + log v / η = L) :
    (L + 1 / η) * d - v / (2 * η) - 10 * δ / η + (d - v) ^ 2 / (4 * η) ≤
      m * d + (log c / η * d + 1 / (c * η) * d ^ 2 / 2) := by
  have hc' := abs_le.1 hc
  have hc0 : 0 < c := by linarith
  have hδ0 : 0 ≤ δ := le_trans (abs_nonneg _) hc
  have h1 : log v - 6 * δ ≤ log c := by
    have h := one_sub_inv_le_log_of_pos (x := c / v) (by positivity)
    rw [log_div hc0.ne' (by linarith), inv_div] at h
    have h2 : v / c ≤ 1 + 6 * δ := by
      rw [div_le_iff₀ hc0]
      nlinarith
    linarith
  have h2 : d - v / 2 - δ / 2 + (d - v) ^ 2 / 4 - δ / 2 ≤ d ^ 2 / (2 * c) := by
    have e1 : d ^ 2 / (2 * c) = d - c / 2 + (d - c) ^ 2 / (2 * c) := by field_simp; ring
    have e2 : (d - c) ^ 2 / 4 ≤ (d - c) ^ 2 / (2 * c) := by
      apply div_le_div_of_nonneg_left (sq_nonneg _) (by positivity) (by linarith)
    have e3 : (d - v) ^ 2 / 4 - δ / 2 ≤ (d - c) ^ 2 / 4 := by
      have h3 : (d - v) * (c - v) ≤ δ := by
        have : |(d - v) * (c - v)| ≤ 1 * δ := by
          rw [abs_mul]
          apply mul_le_mul _ hc (abs_nonneg _) (by norm_num)
          rw [abs_le]; constructor <;> linarith
        have := (abs_le.1 this).2
        linarith
      nlinarith [sq_nonneg (c - v)]
    rw [e1]
    linarith
  have key : (log v + 1) * d - v / 2 - 10 * δ + (d - v) ^ 2 / 4 ≤ log c * d + d ^ 2 / (2 * c) := by
    have : (log v - 6 * δ) * d ≤ log c * d := mul_le_mul_of_nonneg_right h1 hd0
    nlinarith
  have h3 := div_le_div_of_nonneg_right key hη.le
  have e1 : (L + 1 / η) * d - v / (2 * η) - 10 * δ / η + (d - v) ^ 2 / (4 * η) =
      m * d + ((log v + 1) * d - v / 2 - 10 * δ + (d - v) ^ 2 / 4) / η := by
    rw [← hL]; field_simp; ring
  have e2 : m * d + (log c / η * d + 1 / (c * η) * d ^ 2 / 2) = m * d + (log c * d + d ^ 2 / (2 * c)) / η := by
    field_simp
  rw [e1, e2]
  linarith

/-- An example that is stuck at zero. -/
theorem coord_off {η c m L d b : ℝ} (hη : 500 ≤ η) (hc : eps ≤ c) (hb : c ≤ b)
    (hm : -1 ≤ m) (hL : L ≤ 1) (hd0 : 0 ≤ d) :
    (L + 1 / η) * d - 9 * b * η + d ^ 2 / (4 * b * η) ≤ m * d + (log c / η * d + 1 / (c * η) * d ^ 2 / 2) := by
  have hη0 : 0 < η := by linarith
  have hc0 : 0 < c := lt_of_lt_of_le eps_pos hc
  have hb0 : 0 < b := by linarith
  have h1 : -240 ≤ log c := le_trans log_eps_ge (log_le_log eps_pos hc)
  have h2 : -1 / 2 ≤ log c / η := by
    rw [le_div_iff₀ hη0]; linarith
  have h3 : 1 / η ≤ 1 / 2 := by
    rw [div_le_div_iff₀ hη0 (by norm_num)]; linarith
  have h4 : d ^ 2 / (2 * b * η) ≤ 1 / (c * η) * d ^ 2 / 2 := by
    have e1 : 1 / (c * η) * d ^ 2 / 2 = d ^ 2 / (2 * c * η) := by field_simp
    rw [e1]
    apply div_le_div_of_nonneg_left (sq_nonneg _) (by positivity)
    nlinarith
  have h5 : d ^ 2 / (4 * b * η) + 3 * d ≤ d ^ 2 / (2 * b * η) + 9 * b * η := by
    have e1 : 0 ≤ (d - 6 * b * η) ^ 2 / (4 * b * η) := by positivity
    have e2 : (d - 6 * b * η) ^ 2 / (4 * b * η) = d ^ 2 / (2 * b * η) + 9 * b * η - (d ^ 2 / (4 * b * η) + 3 * d) := by
      field_simp; ring
    linarith
  nlinarith [mul_le_mul_of_nonneg_right h2 hd0, mul_le_mul_of_nonneg_right h3 hd0, mul_le_mul_of_nonneg_right hL hd0,
    mul_le_mul_of_nonneg_right hm hd0]

/-- The penalty of the program built around `c`. -/
noncomputable def pen (η : ℝ) (c d : Nat → ℝ) : ℝ :=
  ∑ i ∈ range 20, (log (c i + eps) / η * d i + 1 / ((c i + eps) * η) * d i ^ 2 / 2)

/-- The lower bound for a program built around `c`, close to `v`. -/
theorem stuck_lower {η L δ b : ℝ} {v c m d : Nat → ℝ} (hη : 500 ≤ η) (hδ : δ ≤ 1 / 100) (hδ0 : 0 ≤ δ) (hb : 0 < b)
    (hv : ∀ i, i < 20 → v i = 0 ∨ (1 / 5 ≤ v i ∧ v i ≤ 1)) (hvs : ∑ i ∈ range 20, v i = 1)
    (hc : ∀ i, i < 20 → (v i ≠ 0 → |c i + eps - v i| ≤ δ) ∧ (v i = 0 → 0 ≤ c i ∧ c i + eps ≤ b))
    (hm : ∀ i, i < 20 → v i = 0 → -1 ≤ m i) (hL : ∀ i, i < 20 → v i ≠ 0 → m i + log (v i) / η = L) (hL1 : L ≤ 1)
    (hd : ∀ i, i < 20 → 0 ≤ d i ∧ d i ≤ 1) (hds : ∑ i ∈ range 20, d i = 1) :
    L + 1 / (2 * η) - 200 * δ / η - 180 * b * η +
        ∑ i ∈ range 20, (if v i = 0 then d i ^ 2 / (4 * b * η) else (d i - v i) ^ 2 / (4 * η)) ≤
      ∑ i ∈ range 20, m i * d i + pen η c d := by
  have hη0 : 0 < η := by linarith
  have h : ∀ i ∈ range 20, (L + 1 / η) * d i - v i / (2 * η) - (10 * δ / η + 9 * b * η) +
      (if v i = 0 then d i ^ 2 / (4 * b * η) else (d i - v i) ^ 2 / (4 * η)) ≤
      m i * d i + (log (c i + eps) / η * d i + 1 / ((c i + eps) * η) * d i ^ 2 / 2) := by
    intro i hi
    have hi := mem_range.1 hi
    have p1 : 0 ≤ 10 * δ / η := by positivity
    have p2 : 0 ≤ 9 * b * η := by positivity
    by_cases h0 : v i = 0
    · rw [if_pos h0]
      have hci := (hc i hi).2 h0
      have := coord_off (L := L) (m := m i) hη (by linarith [hci.1] : eps ≤ c i + eps) hci.2 (hm i hi h0) hL1 (hd i hi).1
      rw [h0]
      simp only [zero_div]
      linarith
    · rw [if_neg h0]
      have hvi := (hv i hi).resolve_left h0
      have := coord_support (m := m i) hη0 hvi.1 hvi.2 ((hc i hi).1 h0) hδ (hd i hi).1 (hd i hi).2 (hL i hi h0)
      linarith
  have hs := Finset.sum_le_sum h
  rw [Finset.sum_add_distrib (f := fun i => m i * d i), Finset.sum_add_distrib, Finset.sum_sub_distrib,
    Finset.sum_sub_distrib, ← Finset.mul_sum, ← Finset.sum_div, hds, hvs] at hs
  simp only [sum_const, card_range, nsmul_eq_mul] at hs
  unfold pen
  have e : 1 / η = 1 / (2 * η) + 1 / (2 * η) := by field_simp; ring
  push_cast at hs
  have e2 : (20 : ℝ) * (10 * δ / η + 9 * b * η) = 200 * δ / η + 180 * b * η := by ring
  rw [e2] at hs
  rw [e] at hs
  linarith

/-- The value at `v` of the program built around `v`. -/
theorem stuck_upper {η L g : ℝ} {v m : Nat → ℝ} (hη : 0 < η)
    (hv : ∀ i, i < 20 → v i = 0 ∨ (1 / 5 ≤ v i ∧ v i ≤ 1)) (hvs : ∑ i ∈ range 20, v i = 1)
    (hL : ∀ i, i < 20 → v i ≠ 0 → m i + log (v i) / η = L) (hg : ∑ i ∈ range 20, m i * v i = g) :
    g + pen η v v ≤ L + 1 / (2 * η) + 20 * eps / η := by
  have h : ∀ i ∈ range 20, m i * v i + (log (v i + eps) / η * v i + 1 / ((v i + eps) * η) * v i ^ 2 / 2) ≤
      L * v i + v i / (2 * η) + eps / η := by
    intro i hi
    have hi := mem_range.1 hi
    have he := eps_pos
    by_cases h0 : v i = 0
    · rw [h0]; simp; positivity
    · have hvi := (hv i hi).resolve_left h0
      have hvp : 0 < v i := by linarith
      have h1 : log (v i + eps) * v i ≤ log (v i) * v i + eps := by
        have h := log_le_sub_one_of_pos (x := (v i + eps) / v i) (by positivity)
        rw [log_div (by positivity) h0] at h
        have e : (v i + eps) / v i - 1 = eps / v i := by field_simp; ring
        rw [e] at h
        have h2 := mul_le_mul_of_nonneg_right h hvp.le
        rw [div_mul_cancel₀ _ h0] at h2
        linarith
      have h2 : v i ^ 2 / (2 * (v i + eps)) ≤ v i / 2 := by
        rw [div_le_div_iff₀ (by positivity) (by norm_num)]
        nlinarith
      rw [← hL i hi h0]
      have key : (log (v i + eps) * v i + v i ^ 2 / (2 * (v i + eps))) / η ≤ (log (v i) * v i + v i / 2 + eps) / η :=
        div_le_div_of_nonneg_right (by linarith) hη.le
      have e1 : log (v i + eps) / η * v i + 1 / ((v i + eps) * η) * v i ^ 2 / 2 =
          (log (v i + eps) * v i + v i ^ 2 / (2 * (v i + eps))) / η := by field_simp
      have e2 : (m i + log (v i) / η) * v i + v i / (2 * η) + eps / η =
          m i * v i + (log (v i) * v i + v i / 2 + eps) / η := by field_simp; ring
      rw [e1, e2]
      linarith
  have hs := Finset.sum_le_sum h
  simp only [Finset.sum_add_distrib] at hs
  rw [← Finset.mul_sum (f := fun i => v i), ← Finset.sum_div (f := fun i => v i), hvs, hg] at hs
  simp only [sum_const, card_range, nsmul_eq_mul] at hs
  unfold pen
  simp only [Finset.sum_add_distrib]
  push_cast at hs
  have e2 : (20 : ℝ) * (eps / η) = 20 * eps / η := by ring
  rw [e2] at hs
  linarith

/-- The first program: `v` is its only solution. -/
theorem uniform_lower {η l : ℝ} {v m d : Nat → ℝ} (hη : 0 < η)
    (hk : ∀ i, i < 20 → 0 ≤ m i + (log (1 / 20 + eps) + v i / (1 / 20 + eps)) / η - l)
    (hk0 : ∀ i, i < 20 → v i ≠ 0 → m i + (log (1 / 20 + eps) + v i / (1 / 20 + eps)) / η - l = 0)
    (hvs : ∑ i ∈ range 20, v i = 1) (hd : ∀ i, i < 20 → 0 ≤ d i) (hds : ∑ i ∈ range 20, d i = 1) :
    ∑ i ∈ range 20, m i * v i + pen η (fun _ => 1 / 20) v + ∑ i ∈ range 20, (d i - v i) ^ 2 / (2 * (1 / 20 + eps) * η) ≤
      ∑ i ∈ range 20, m i * d i + pen η (fun _ => 1 / 20) d := by
  have he := eps_pos
  set c : ℝ := 1 / 20 + eps with hc
  have hc0 : 0 < c := by positivity
  have h : ∀ i ∈ range 20, m i * v i + (log c / η * v i + 1 / (c * η) * v i ^ 2 / 2) + (d i - v i) ^ 2 / (2 * c * η) +
      (l * d i - l * v i) ≤ m i * d i + (log c / η * d i + 1 / (c * η) * d i ^ 2 / 2) := by
    intro i hi
    have hi := mem_range.1 hi
    have h1 : 0 ≤ (m i + (log c + v i / c) / η - l) * (d i - v i) := by
      by_cases h0 : v i = 0
      · have := hk i hi
        rw [h0, sub_zero]
        rw [h0] at this
        exact mul_nonneg this (hd i hi)
      · rw [hk0 i hi h0, zero_mul]
    have e : m i * d i + (log c / η * d i + 1 / (c * η) * d i ^ 2 / 2) -
        (m i * v i + (log c / η * v i + 1 / (c * η) * v i ^ 2 / 2) + (d i - v i) ^ 2 / (2 * c * η) + (l * d i - l * v i)) =
        (m i + (log c + v i / c) / η - l) * (d i - v i) := by
      field_simp; ring
    linarith
  have hs := Finset.sum_le_sum h
  simp only [Finset.sum_add_distrib, Finset.sum_sub_distrib] at hs
  have hl1 : ∑ i ∈ range 20, l * d i = l := by rw [← Finset.mul_sum, hds, mul_one]
  have hl2 : ∑ i ∈ range 20, l * v i = l := by rw [← Finset.mul_sum, hvs, mul_one]
  rw [hl1, hl2] at hs
  unfold pen
  simp only [← hc, Finset.sum_add_distrib]
  linarith

variable {H X : Type*} [Classifier H X ℝ]

/-- One turn of the loop: what the solver answers and what is done with it. -/
theorem loop_step {m : QPModel} {S : Examples X ℝ} {hs : List H} {nu : ℝ} (hm : Holds m S hs nu) (hS : S ≠ []) (hhs : hs ≠ [])
    (hnu1 : 1 ≤ nu) (hnu2 : nu ≤ S.length) (heta : 0 < m.eta) (hd : Spec.IsCapped nu m.dist) {solver : Solver ℝ}
    (hsolver : solver.Correct) (hrep : solver.Reports) (fuel : Nat) (old : ℝ) :
    ∃ (γ o : ℝ) (d w : List ℝ),
      QPModel.solveLoop solver (fuel + 1) m old =
        (if old - o < qpTolerance then .ok m else QPModel.solveLoop solver fuel { m with dist := d, weights := w } o) ∧
      d.length = S.length ∧ Spec.IsCapped nu d ∧ (∀ h ∈ hs, Spec.edge S d (conf h) ≤ γ) ∧ w.length = hs.length ∧ Spec.IsProb w ∧
      o = γ + quadPen S.length (fun i => log (m.dist.getD i 0 + eps) / m.eta) (fun i => 1 / ((m.dist.getD i 0 + eps) * m.eta)) d ∧
      ∀ d' : List ℝ, d'.length = S.length → Spec.IsCapped nu d' →
        o ≤ Spec.edge S d' (fun x => Spec.vote conf (List.zip w hs) x) +
          quadPen S.length (fun i => log (m.dist.getD i 0 + eps) / m.eta) (fun i => 1 / ((m.dist.getD i 0 + eps) * m.eta)) d' := by
  obtain ⟨⟨s, hs'⟩, γ, d, h1, h2, h3, h4, h5, h6, h7, h8, h9⟩ := step_optimal hm hS hhs hnu1 hnu2 heta hd hsolver
  have hst := hrep _ s hs'
  refine ⟨γ, (solver (m.program m.dist)).objVal, d, (solver (m.program m.dist)).z.drop (1 + 2 * S.length), ?_, h3, h4, h5, h6, h7, h8, h9⟩
  have c0 : (m.dist.any fun d => decide (d + eps ≤ 0)) = false := by
    rw [List.any_eq_false]
    intro p hp
    have := (hd.1 p hp).1
    have := eps_pos
    simp only [decide_eq_true_eq, not_le]
    linarith
  have c1 : (solver (m.program m.dist)).status ≠ .other := by rcases hst with h | h <;> rw [h] <;> simp
  have c2 : (solver (m.program m.dist)).status ≠ .insufficientProgress := by rcases hst with h | h <;> rw [h] <;> simp
  simp only [QPModel.solveLoop]
  rw [c0, if_neg (by simp), if_neg c1]
  by_cases c : old - (solver (m.program m.dist)).objVal < qpTolerance
  · rw [if_pos (Or.inl c), if_pos c]
  · rw [if_neg (by rintro (h | h); exacts [c h, c2 h]), if_neg c]
    rw [if_neg (by rw [h1, hm.nEx]; simp; omega)]
    rw [hm.nEx, h1, List.drop_one, List.tail_cons, map_max_self d fun p hp => (h4.1 p hp).1, map_max_self _ h7.1]

theorem prob_getD {d : List ℝ} {n : Nat} (hl : d.length = n) (hd : Spec.IsCapped 1 d) :
    (∀ i, i < n → 0 ≤ d.getD i 0 ∧ d.getD i 0 ≤ 1) ∧ ∑ i ∈ range n, d.getD i 0 = 1 := by
  refine ⟨fun i hi => ?_, ?_⟩
  · have := hd.1 _ (getD_mem d i (by omega))
    simpa using this
  · rw [← hl, ← sum_getD]; exact hd.2

set_option maxHeartbeats 2000000 in
/-- The loop accepts two solutions, then stops; the second is as close to `v` as the arithmetic allows. -/
theorem loop_stuck {m : QPModel} {S : Examples X ℝ} {hs : List H} (hm : Holds m S hs 1) (hS : S.length = 20) (hhs : hs ≠ [])
    (he1 : 500 ≤ m.eta) (he2 : m.eta ≤ 700) (hdist : m.dist = List.replicate 20 (1 / 20)) {solver : Solver ℝ}
    (hsolver : solver.Correct) (hrep : solver.Reports) (fuel : Nat) (hfuel : 3 ≤ fuel)
    (v : List ℝ) (hvl : v.length = 20) (hv : ∀ i, i < 20 → v.getD i 0 = 0 ∨ (1 / 5 ≤ v.getD i 0 ∧ v.getD i 0 ≤ 1)) (hvs : v.sum = 1)
    (hv2 : 1 / 2 ≤ ∑ i ∈ range 20, v.getD i 0 ^ 2) (m₁ m₂ : Nat → ℝ) (L l g : ℝ)
    (hmix1 : ∀ (d : List ℝ) (γ : ℝ), d.length = 20 → (∀ h ∈ hs, Spec.edge S d (conf h) ≤ γ) → ∑ i ∈ range 20, m₁ i * d.getD i 0 ≤ γ)
    (hmix2 : ∀ (d : List ℝ) (γ : ℝ), d.length = 20 → (∀ h ∈ hs, Spec.edge S d (conf h) ≤ γ) → ∑ i ∈ range 20, m₂ i * d.getD i 0 ≤ γ)
    (hg : ∀ h ∈ hs, Spec.edge S v (conf h) ≤ g) (hg1 : ∑ i ∈ range 20, m₁ i * v.getD i 0 = g)
    (hg2 : ∑ i ∈ range 20, m₂ i * v.getD i 0 = g) (hgb : g ≤ 1)
    (hk : ∀ i, i < 20 → 0 ≤ m₁ i + (log (1 / 20 + eps) + v.getD i 0 / (1 / 20 + eps)) / m.eta - l)
    (hk0 : ∀ i, i < 20 → v.getD i 0 ≠ 0 → m₁ i + (log (1 / 20 + eps) + v.getD i 0 / (1 / 20 + eps)) / m.eta - l = 0)
    (hm2 : ∀ i, i < 20 → v.getD i 0 = 0 → -1 ≤ m₂ i)
    (hL : ∀ i, i < 20 → v.getD i 0 ≠ 0 → m₂ i + log (v.getD i 0) / m.eta = L) (hL1 : L ≤ 1) :
    ∃ m', QPModel.solveLoop solver fuel m 1000 = .ok m' ∧ (∀ i, i < 20 → |m'.dist.getD i 0 - v.getD i 0| ≤ 1 / 10 ^ 40) ∧
      m'.dist.length = 20 ∧ Spec.IsCapped 1 m'.dist ∧ m'.weights.length = hs.length ∧ Spec.IsProb m'.weights ∧
      ∀ d : List ℝ, d.length = 20 → Spec.IsCapped 1 d →
        L + 1 / (2 * m.eta) - 1 / 10 ^ 50 ≤ Spec.edge S d (fun x => Spec.vote conf (List.zip m'.weights hs) x) +
          pen m.eta (fun i => v.getD i 0) (fun i => d.getD i 0) := by
  have hSne : S ≠ [] := by rintro rfl; simp at hS
  have hη0 : 0 < m.eta := by linarith
  have hn1 : (1 : ℝ) ≤ (S.length : ℝ) := by rw [hS]; norm_num
  have hep := eps_pos
  have hes : eps ≤ 1 / 10 ^ 100 := eps_small
  set η := m.eta with hηdef
  have hvcap : Spec.IsCapped 1 v := by
    refine ⟨fun p hp => ?_, hvs⟩
    obtain ⟨i, hi, rfl⟩ := List.mem_iff_getElem.1 hp
    have := hv i (by omega)
    rw [List.getD_eq_getElem?_getD, List.getElem?_eq_getElem hi] at this
    simp only [Option.getD_some] at this
    rcases this with h | h
    · rw [h]; norm_num
    · constructor <;> linarith [h.1, h.2]
  obtain ⟨hvp, hvs'⟩ := prob_getD hvl hvcap
  -- the first turn
  obtain ⟨k, rfl⟩ : ∃ k, fuel = k + 3 := ⟨fuel - 3, by omega⟩
  have hucap : Spec.IsCapped 1 m.dist := by
    rw [hdist]
    refine ⟨fun p hp => ?_, by rw [List.sum_replicate]; norm_num⟩
    rw [List.eq_of_mem_replicate hp]; norm_num
  obtain ⟨γ₁, o₁, d₁, w₁, e1, l1, c1, g1, wl1, wp1, ho1, hopt1⟩ :=
    loop_step hm hSne hhs le_rfl hn1 hη0 hucap hsolver hrep (k + 2) 1000
  rw [hS] at l1 ho1 hopt1
  have hpu : ∀ d : List ℝ, quadPen 20 (fun i => log (m.dist.getD i 0 + eps) / m.eta) (fun i => 1 / ((m.dist.getD i 0 + eps) * m.eta)) d =
      pen η (fun _ => 1 / 20) (fun i => d.getD i 0) := by
    intro d
    unfold quadPen pen
    apply Finset.sum_congr rfl
    intro i hi
    have : m.dist.getD i 0 = 1 / 20 := by
      rw [hdist, List.getD_eq_getElem?_getD, List.getElem?_replicate, if_pos (mem_range.1 hi)]; rfl
    simp only [this]; rfl
  rw [hpu] at ho1
  obtain ⟨hd1, hds1⟩ := prob_getD l1 c1
  have lb1 := uniform_lower (m := m₁) (v := fun i => v.getD i 0) (d := fun i => d₁.getD i 0) hη0 hk hk0 hvs' (fun i hi => (hd1 i hi).1) hds1
  have ub1 : o₁ ≤ g + pen η (fun _ => 1 / 20) (fun i => v.getD i 0) := by
    have := hopt1 v hvl hvcap
    rw [hpu] at this
    have h2 := vote_edge_le S hs v w₁ wl1 wp1 g hg
    linarith
  have hγ1 := hmix1 d₁ γ₁ l1 g1
  have hzero : ∑ i ∈ range 20, (d₁.getD i 0 - v.getD i 0) ^ 2 / (2 * (1 / 20 + eps) * η) ≤ 0 := by
    simp only at lb1
    rw [hg1] at lb1
    linarith
  have hd1v : ∀ i, i < 20 → d₁.getD i 0 = v.getD i 0 := by
    intro i hi
    have h1 : (d₁.getD i 0 - v.getD i 0) ^ 2 / (2 * (1 / 20 + eps) * η) ≤ 0 := by
      refine le_trans ?_ hzero
      exact Finset.single_le_sum (f := fun i => (d₁.getD i 0 - v.getD i 0) ^ 2 / (2 * (1 / 20 + eps) * η))
        (fun j _ => by positivity) (mem_range.2 hi)
    have h2 : (d₁.getD i 0 - v.getD i 0) ^ 2 = 0 := by
      rcases (sq_nonneg (d₁.getD i 0 - v.getD i 0)).eq_or_lt with h | h
      · exact h.symm
      · have : 0 < (d₁.getD i 0 - v.getD i 0) ^ 2 / (2 * (1 / 20 + eps) * η) := by positivity
        linarith
    have := pow_eq_zero_iff (two_ne_zero) |>.1 h2
    linarith
  have lo1 : g + pen η (fun _ => 1 / 20) (fun i => v.getD i 0) ≤ o₁ := by
    have : 0 ≤ ∑ i ∈ range 20, (d₁.getD i 0 - v.getD i 0) ^ 2 / (2 * (1 / 20 + eps) * η) :=
      Finset.sum_nonneg fun j _ => by positivity
    simp only at lb1
    rw [hg1] at lb1
    linarith
  have hlog20 : -(303 / 100) ≤ log (1 / 20 + eps) ∧ log (1 / 20 + eps) ≤ 0 := by
    constructor
    · have h1 : log (1 / 20) ≤ log (1 / 20 + eps) := log_le_log (by norm_num) (by linarith)
      rw [one_div, log_inv] at h1
      have := log_twenty_bounds.2
      rw [← one_div] at h1
      linarith
    · apply log_nonpos (by positivity)
      have : (1 : ℝ) / 10 ^ 100 ≤ 1 / 2 := by norm_num
      linarith
  have hpenu : pen η (fun _ => 1 / 20) (fun i => v.getD i 0) =
      (log (1 / 20 + eps) + (∑ i ∈ range 20, v.getD i 0 ^ 2) / (2 * (1 / 20 + eps))) / η := by
    unfold pen
    simp only [Finset.sum_add_distrib]
    rw [← Finset.mul_sum (f := fun i => v.getD i 0), hvs', ← Finset.sum_div, ← Finset.mul_sum]
    field_simp
  have hv2' : ∑ i ∈ range 20, v.getD i 0 ^ 2 ≤ 1 := by
    rw [← hvs']
    apply Finset.sum_le_sum
    intro i hi
    have := hvp i (mem_range.1 hi)
    nlinarith
  have hpl : (1 / 1) / η ≤ pen η (fun _ => 1 / 20) (fun i => v.getD i 0) := by
    rw [hpenu]
    apply div_le_div_of_nonneg_right _ hη0.le
    have : (49 / 10 : ℝ) ≤ (∑ i ∈ range 20, v.getD i 0 ^ 2) / (2 * (1 / 20 + eps)) := by
      rw [le_div_iff₀ (by positivity)]
      have : (1 : ℝ) / 10 ^ 100 ≤ 1 / 2000 := by norm_num
      linarith
    linarith [hlog20.1]
  have hacc1 : ¬ 1000 - o₁ < qpTolerance := by
    have : pen η (fun _ => 1 / 20) (fun i => v.getD i 0) ≤ 1 := by
      rw [hpenu, div_le_one hη0]
      have : (∑ i ∈ range 20, v.getD i 0 ^ 2) / (2 * (1 / 20 + eps)) ≤ 10 := by
        rw [div_le_iff₀ (by positivity)]
        linarith
      linarith [hlog20.2]
    have ht : qpTolerance ≤ 1 := by unfold qpTolerance; norm_num
    rw [not_lt]
    linarith
  rw [if_neg hacc1] at e1
  -- the second turn
  have hm1 : Holds { m with dist := d₁, weights := w₁ } S hs 1 := ⟨hm.nEx, hm.nHyp, hm.rows, hm.cap, by rw [hS]; exact l1⟩
  obtain ⟨γ₂, o₂, d₂, w₂, e2, l2, c2, g2, wl2, wp2, ho2, hopt2⟩ :=
    loop_step hm1 hSne hhs le_rfl hn1 hη0 c1 hsolver hrep (k + 1) o₁
  rw [hS] at l2 ho2 hopt2
  have hpv : ∀ d : List ℝ, quadPen 20 (fun i => log (d₁.getD i 0 + eps) / m.eta) (fun i => 1 / ((d₁.getD i 0 + eps) * m.eta)) d =
      pen η (fun i => v.getD i 0) (fun i => d.getD i 0) := by
    intro d
    unfold quadPen pen
    apply Finset.sum_congr rfl
    intro i hi
    simp only [hd1v i (mem_range.1 hi)]; rfl
  simp only at ho2 hopt2
  rw [hpv] at ho2
  simp only [hpv] at hopt2
  obtain ⟨hd2, hds2⟩ := prob_getD l2 c2
  have up2 := stuck_upper (m := m₂) (v := fun i => v.getD i 0) (g := g) hη0 hv hvs' hL hg2
  have ub2 : o₂ ≤ g + pen η (fun i => v.getD i 0) (fun i => v.getD i 0) := by
    have := hopt2 v hvl hvcap
    have h2 := vote_edge_le S hs v w₂ wl2 wp2 g hg
    linarith
  have lb2 := stuck_lower (δ := eps) (b := eps) (m := m₂) (v := fun i => v.getD i 0) (c := fun i => v.getD i 0)
    (d := fun i => d₂.getD i 0) he1 (by refine le_trans hes ?_; norm_num) hep.le hep hv hvs'
    (fun i hi => ⟨fun _ => by simp [abs_of_pos hep], fun h => by rw [h]; simp⟩) hm2 hL hL1 hd2 hds2
  have hγ2 := hmix2 d₂ γ₂ l2 g2
  have hacc2 : ¬ o₁ - o₂ < qpTolerance := by
    have h1 : pen η (fun i => v.getD i 0) (fun i => v.getD i 0) ≤ (3 / 4) / η := by
      unfold pen
      have : ∀ i ∈ range 20, log (v.getD i 0 + eps) / η * v.getD i 0 + 1 / ((v.getD i 0 + eps) * η) * v.getD i 0 ^ 2 / 2 ≤
          (eps + v.getD i 0 / 2) / η := by
        intro i hi
        have hi := mem_range.1 hi
        have hvi := hvp i hi
        have a1 : log (v.getD i 0 + eps) * v.getD i 0 ≤ eps := by
          have h := log_le_sub_one_of_pos (x := v.getD i 0 + eps) (by linarith)
          nlinarith
        have a2 : v.getD i 0 ^ 2 / (2 * (v.getD i 0 + eps)) ≤ v.getD i 0 / 2 := by
          rw [div_le_div_iff₀ (by linarith) (by norm_num)]
          nlinarith
        have a3 : log (v.getD i 0 + eps) / η * v.getD i 0 + 1 / ((v.getD i 0 + eps) * η) * v.getD i 0 ^ 2 / 2 =
            (log (v.getD i 0 + eps) * v.getD i 0 + v.getD i 0 ^ 2 / (2 * (v.getD i 0 + eps))) / η := by
          have : v.getD i 0 + eps ≠ 0 := by linarith
          field_simp
        rw [a3]
        exact div_le_div_of_nonneg_right (by linarith) hη0.le
      refine le_trans (Finset.sum_le_sum this) ?_
      rw [← Finset.sum_div, Finset.sum_add_distrib, ← Finset.sum_div, hvs']
      apply div_le_div_of_nonneg_right _ hη0.le
      simp only [sum_const, card_range, nsmul_eq_mul]
      have : (1 : ℝ) / 10 ^ 100 ≤ 1 / 2000 := by norm_num
      push_cast
      linarith
    have h2 : qpTolerance ≤ (1 / 4) / η := by
      unfold qpTolerance
      rw [div_le_div_iff₀ (by norm_num) hη0]
      linarith
    rw [not_lt]
    have : (1 / 1) / η = (3 / 4) / η + (1 / 4) / η := by field_simp; ring
    linarith
  rw [if_neg hacc2] at e2
  -- the second solution is close to `v`
  have hQ : ∑ i ∈ range 20, (if v.getD i 0 = 0 then d₂.getD i 0 ^ 2 / (4 * eps * η) else (d₂.getD i 0 - v.getD i 0) ^ 2 / (4 * η)) ≤
      130000 * eps := by
    have a1 : 20 * eps / η ≤ eps := by rw [div_le_iff₀ hη0]; nlinarith
    have a2 : 200 * eps / η ≤ eps := by rw [div_le_iff₀ hη0]; nlinarith
    have a3 : 180 * eps * η ≤ 126000 * eps := by nlinarith
    linarith
  have hQi : ∀ i, i < 20 → (if v.getD i 0 = 0 then d₂.getD i 0 ^ 2 / (4 * eps * η) else (d₂.getD i 0 - v.getD i 0) ^ 2 / (4 * η)) ≤
      130000 * eps := by
    intro i hi
    refine le_trans ?_ hQ
    apply Finset.single_le_sum (f := fun i => if v.getD i 0 = 0 then d₂.getD i 0 ^ 2 / (4 * eps * η) else (d₂.getD i 0 - v.getD i 0) ^ 2 / (4 * η))
      _ (mem_range.2 hi)
    intro j _
    split <;> positivity
  have hoff : ∀ i, i < 20 → v.getD i 0 = 0 → d₂.getD i 0 ≤ 20000 * eps := by
    intro i hi h0
    have h := hQi i hi
    rw [if_pos h0, div_le_iff₀ (by positivity)] at h
    have h2 : d₂.getD i 0 ^ 2 ≤ (20000 * eps) ^ 2 := by nlinarith [sq_nonneg eps]
    exact abs_le_of_sq_le_sq' h2 (by positivity) |>.2
  have hon : ∀ i, i < 20 → v.getD i 0 ≠ 0 → |d₂.getD i 0 - v.getD i 0| ≤ 1 / 10 ^ 45 := by
    intro i hi h0
    have h := hQi i hi
    rw [if_neg h0, div_le_iff₀ (by positivity)] at h
    apply abs_le_of_sq_le_sq _ (by positivity)
    have h3 : 130000 * eps * (4 * η) ≤ 130000 * (1 / 10 ^ 100) * (4 * 700) := by
      apply mul_le_mul _ (by linarith) (by positivity) (by positivity)
      linarith
    refine le_trans h (le_trans h3 ?_)
    norm_num
  -- the third turn
  have hm2' : Holds { m with dist := d₂, weights := w₂ } S hs 1 := ⟨hm.nEx, hm.nHyp, hm.rows, hm.cap, by rw [hS]; exact l2⟩
  obtain ⟨γ₃, o₃, d₃, w₃, e3, l3, c3, g3, wl3, wp3, ho3, -⟩ :=
    loop_step hm2' hSne hhs le_rfl hn1 hη0 c2 hsolver hrep k o₂
  rw [hS] at l3 ho3
  simp only at ho3
  obtain ⟨hd3, hds3⟩ := prob_getD l3 c3
  have hγ3 := hmix2 d₃ γ₃ l3 g3
  have lb3 := stuck_lower (δ := 1 / 10 ^ 44) (b := 1 / 10 ^ 90) (m := m₂) (v := fun i => v.getD i 0) (c := fun i => d₂.getD i 0)
    (d := fun i => d₃.getD i 0) he1 (by norm_num) (by positivity) (by positivity) hv hvs'
    (fun i hi => ⟨fun h => by
      have := abs_le.1 (hon i hi h)
      have h1 : (1 : ℝ) / 10 ^ 100 ≤ 1 / 10 ^ 45 := by norm_num
      have h2 : (1 : ℝ) / 10 ^ 45 + 1 / 10 ^ 45 ≤ 1 / 10 ^ 44 := by norm_num
      rw [abs_le]
      constructor <;> linarith, fun h => by
      have := hoff i hi h
      have h1 : (20001 : ℝ) * (1 / 10 ^ 100) ≤ 1 / 10 ^ 90 := by norm_num
      refine ⟨(hd2 i hi).1, ?_⟩
      linarith⟩) hm2 hL hL1 hd3 hds3
  have hQ3 : 0 ≤ ∑ i ∈ range 20, (if v.getD i 0 = 0 then d₃.getD i 0 ^ 2 / (4 * (1 / 10 ^ 90) * η) else (d₃.getD i 0 - v.getD i 0) ^ 2 / (4 * η)) :=
    Finset.sum_nonneg fun j _ => by split <;> positivity
  have hpen3 : quadPen 20 (fun i => log (d₂.getD i 0 + eps) / m.eta) (fun i => 1 / ((d₂.getD i 0 + eps) * m.eta)) d₃ =
      pen η (fun i => d₂.getD i 0) (fun i => d₃.getD i 0) := rfl
  rw [hpen3] at ho3
  have hstop : o₂ - o₃ < qpTolerance := by
    have a1 : 20 * eps / η ≤ 1 / 10 ^ 30 := by
      rw [div_le_iff₀ hη0]
      have : 20 * eps ≤ 20 * (1 / 10 ^ 100) := by linarith
      have h2 : (20 : ℝ) * (1 / 10 ^ 100) ≤ 1 / 10 ^ 30 * 500 := by norm_num
      have h3 : (1 : ℝ) / 10 ^ 30 * 500 ≤ 1 / 10 ^ 30 * η := mul_le_mul_of_nonneg_left he1 (by positivity)
      linarith
    have a2 : 200 * (1 / 10 ^ 44) / η ≤ 1 / 10 ^ 30 := by
      rw [div_le_iff₀ hη0]
      have h2 : (200 : ℝ) * (1 / 10 ^ 44) ≤ 1 / 10 ^ 30 * 500 := by norm_num
      have h3 : (1 : ℝ) / 10 ^ 30 * 500 ≤ 1 / 10 ^ 30 * η := mul_le_mul_of_nonneg_left he1 (by positivity)
      linarith
    have a3 : 180 * (1 / 10 ^ 90) * η ≤ 1 / 10 ^ 30 := by
      have h3 : (180 : ℝ) * (1 / 10 ^ 90) * η ≤ 180 * (1 / 10 ^ 90) * 700 := mul_le_mul_of_nonneg_left he2 (by positivity)
      refine le_trans h3 ?_
      norm_num
    have a4 : (3 : ℝ) * (1 / 10 ^ 30) < qpTolerance := by unfold qpTolerance; norm_num
    linarith
  rw [if_pos hstop] at e3
  refine ⟨_, by rw [e1, e2, e3], ?_, l2, c2, wl2, wp2, ?_⟩
  · intro i hi
    by_cases h0 : v.getD i 0 = 0
    · have h1 := hoff i hi h0
      have h2 := (hd2 i hi).1
      simp only
      rw [h0, sub_zero, abs_of_nonneg h2]
      have h3 : (20000 : ℝ) * (1 / 10 ^ 100) ≤ 1 / 10 ^ 40 := by norm_num
      linarith
    · refine le_trans (hon i hi h0) ?_
      norm_num
  · intro d hl hcap
    have h1 := hopt2 d hl hcap
    simp only
    have hQ2 : 0 ≤ ∑ i ∈ range 20, (if v.getD i 0 = 0 then d₂.getD i 0 ^ 2 / (4 * eps * η) else (d₂.getD i 0 - v.getD i 0) ^ 2 / (4 * η)) :=
      Finset.sum_nonneg fun j _ => by split <;> positivity
    have a2 : 200 * eps / η ≤ eps := by rw [div_le_iff₀ hη0]; nlinarith
    have a3 : 180 * eps * η ≤ 126000 * eps := by nlinarith
    have a4 : (126001 : ℝ) * (1 / 10 ^ 100) ≤ 1 / 10 ^ 50 := by norm_num
    linarith

end Miniboosts.ERLP.Stuck
