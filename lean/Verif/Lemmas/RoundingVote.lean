import Verif.Lemmas.RoundingRun

/-! # The vote of `f64` hypotheses -/

namespace Miniboosts

namespace F64

variable {H X : Type*} [Classifier H X F64]

theorem eta_le_pow : eta ≤ (1 / 2) ^ 900 * (1 / 10 ^ 50) := by
  have h : eta = (1 / 2) ^ 900 * (1 / 2) ^ 175 := by
    unfold eta
    rw [← pow_add, one_div, inv_pow, zpow_neg]
    norm_cast
  rw [h]
  apply mul_le_mul_of_nonneg_left _ (by positivity)
  norm_num

theorem sum_le_const {α : Type*} (V : List α) (f : α → ℝ) (b : ℝ) (h : ∀ v ∈ V, f v ≤ b) : (V.map f).sum ≤ V.length * b := by
  have := List.sum_le_sum (f := f) (g := fun _ => b) h
  simpa using this

theorem const_le_sum {α : Type*} (V : List α) (f : α → ℝ) (b : ℝ) (h : ∀ v ∈ V, b ≤ f v) : V.length * b ≤ (V.map f).sum := by
  have := List.sum_le_sum (f := fun _ => b) (g := f) h
  simpa using this

/-- Votes between `0.0004` and `4` of at most `900` hypotheses: the division by the sum succeeds, and the sign of the vote is that of the exact vote
unless that is tiny. -/
theorem vote_fin (V : List (ℝ × H)) (h0 : V ≠ []) (hl : V.length ≤ 900) (hV : ∀ v ∈ V, 4 / 10 ^ 4 ≤ v.1 ∧ v.1 ≤ 4) :
    ∃ z : ℝ, 0 < z ∧ z ≤ 4000 ∧ |z - (V.map fun v => v.1).sum| ≤ 1 / 10 ^ 8 ∧ ∃ f, fromSlices (V.map fun v => fin v.1) (V.map Prod.snd) = .ok f ∧
      ∀ x : X, (∀ v ∈ V, ∃ c : ℝ, conf v.2 x = fin c ∧ |c| ≤ 1) →
        ∃ F : ℝ, weightedConf f x = fin F ∧ |F - (V.map fun v => v.1 * (conf v.2 x).val).sum / z| ≤ 1 / 10 ^ 11 := by
  have hu := u_small
  have hu0 := u_pos
  have het := eta_tiny
  have het0 := eta_pos
  have hl1 : (1 : ℝ) ≤ V.length := by exact_mod_cast List.length_pos_iff.mpr h0
  have hl2 : (V.length : ℝ) ≤ 900 := by exact_mod_cast hl
  have hpos : ∀ v ∈ V, 0 < v.1 := fun v hv => by linarith [(hV v hv).1]
  set W := (V.map fun v => v.1).sum with hW
  have hWhi : W ≤ V.length * 4 := sum_le_const V _ 4 fun v hv => (hV v hv).2
  have hWlo : V.length * (4 / 10 ^ 4) ≤ W := const_le_sum V _ _ fun v hv => (hV v hv).1
  have habs : ((V.map fun v => v.1).map (|·|)) = V.map fun v => v.1 := by
    rw [List.map_map]
    exact List.map_congr_left fun v hv => abs_of_pos (hpos v hv)
  obtain ⟨z, hz, -, hze⟩ := foldl_add_err 4000 (by norm_num) (by norm_num) (V.map fun v => v.1) 0 0 0 rep_zero (by simp)
    (by rw [abs_zero, zero_add, habs]; linarith) (by simp; omega)
  simp only [zero_add, List.length_map] at hze
  have hze' : |z - W| ≤ 1 / 10 ^ 8 := by
    refine hze.trans ?_
    calc 2 * u * 4000 * V.length ≤ 2 * (1 / 9000000000000000) * 4000 * 900 := by gcongr
      _ ≤ _ := by norm_num
  have hz' := abs_le.mp hze'
  have hz0 : 0 < z := by linarith
  have hWz : W / z ≤ 11 / 10 := by rw [div_le_iff₀ hz0]; linarith
  refine ⟨z, hz0, by linarith, hze', ?_⟩
  -- the normalised votes
  have hvz : ∀ v ∈ V, 0 < v.1 / z ∧ v.1 / z ≤ 20000 := by
    intro v hv
    refine ⟨div_pos (hpos v hv) hz0, ?_⟩
    rw [div_le_iff₀ hz0]
    have := (hV v hv).2
    linarith
  have hdiv : ∀ v ∈ V, div (fin v.1) (fin z) = fin (round (v.1 / z)) ∧ |round (v.1 / z) - v.1 / z| ≤ u * (v.1 / z) + eta := by
    intro v hv
    obtain ⟨h1, h2⟩ := hvz v hv
    have h3 := round_err (v.1 / z)
    rw [abs_of_pos h1] at h3
    refine ⟨?_, h3⟩
    simp only [div, if_neg hz0.ne']
    exact rnd_small (by rw [abs_of_pos h1]; linarith)
  have hzip : ((V.map fun v => fin v.1).zip (V.map Prod.snd)) = V.map fun v => (fin v.1, v.2) := by
    rw [List.zip_map']
  have hfilter : ((V.map fun v => fin v.1).zip (V.map Prod.snd)).filter (fun p => @decide (Lt (fin 0) p.1) (Classical.propDecidable _)) =
      V.map fun v => (fin v.1, v.2) := by
    rw [hzip]
    apply List.filter_eq_self.mpr
    simp only [List.mem_map]
    rintro _ ⟨v, hv, rfl⟩
    refine @decide_eq_true _ (Classical.propDecidable _) ?_
    exact hpos v hv
  have hnorm : normalize (V.map fun v => fin v.1) = .ok (V.map fun v => fin (round (v.1 / z))) := by
    have hzz : ((V.map fun v => fin v.1).map F64.abs).foldl add (fin 0) = fin z := by
      rw [← hz, List.map_map, List.map_map]
      congr 1
      apply List.map_congr_left
      intro v hv
      simp only [Function.comp, F64.abs, abs_of_pos (hpos v hv)]
    unfold normalize
    refine (if_neg ?_).trans ?_
    · rw [hzz]; intro h; injection h with h; exact hz0.ne' h
    · rw [hzz, List.map_map]
      congr 1
      exact List.map_congr_left fun v hv => (hdiv v hv).1
  refine ⟨⟨V.map fun v => fin (round (v.1 / z)), V.map Prod.snd⟩, ?_, ?_⟩
  · unfold fromSlices
    simp only
    rw [hfilter, List.map_map, List.map_map]
    have : normalize (V.map (Prod.fst ∘ fun v => (fin v.1, v.2))) = .ok (V.map fun v => fin (round (v.1 / z))) := hnorm
    rw [this]
    rfl
  intro x hx
  have hprod : ∀ v ∈ V, mul (fin (round (v.1 / z))) (conf v.2 x) = fin (round (round (v.1 / z) * (conf v.2 x).val)) ∧
      |round (round (v.1 / z) * (conf v.2 x).val) - v.1 / z * (conf v.2 x).val| ≤ 4 * u * (v.1 / z) + 4 * eta := by
    intro v hv
    obtain ⟨c, hc, hc1⟩ := hx v hv
    obtain ⟨h1, h2⟩ := hvz v hv
    have h3 := abs_le.mp (hdiv v hv).2
    rw [hc]
    have hval : (fin c).val = c := rfl
    rw [hval]
    have hr1 : |round (v.1 / z)| ≤ 2 * (v.1 / z) + eta := by rw [abs_le]; constructor <;> nlinarith
    have hr2 : |round (v.1 / z) * c| ≤ 2 * (v.1 / z) + eta := by
      rw [abs_mul]; nlinarith [abs_nonneg (round (v.1 / z)), abs_nonneg c]
    refine ⟨rnd_small (hr2.trans (by linarith)), ?_⟩
    have h4 := round_err (round (v.1 / z) * c)
    have h5 : |round (v.1 / z) * c - v.1 / z * c| ≤ u * (v.1 / z) + eta := by
      rw [← sub_mul, abs_mul]
      have := (hdiv v hv).2
      nlinarith [abs_nonneg (round (v.1 / z) - v.1 / z), abs_nonneg c]
    have h6 := abs_add_le (round (round (v.1 / z) * c) - round (v.1 / z) * c) (round (v.1 / z) * c - v.1 / z * c)
    rw [sub_add_sub_cancel] at h6
    have h7 : u * |round (v.1 / z) * c| ≤ u * (2 * (v.1 / z) + eta) := by gcongr
    nlinarith
  set T := V.map fun v => round (round (v.1 / z) * (conf v.2 x).val) with hT
  have hsumdiv : (V.map fun v => v.1 / z).sum = W / z := by
    rw [hW, div_eq_mul_inv, ← List.sum_map_mul_right]; rfl
  have hterm : |T.sum - (V.map fun v => v.1 * (conf v.2 x).val).sum / z| ≤ 1 / 10 ^ 14 := by
    have h1 := sum_close V (fun v => round (round (v.1 / z) * (conf v.2 x).val)) (fun v => v.1 / z * (conf v.2 x).val)
      (fun v => (4 * u) * (v.1 / z) + 4 * eta) fun v hv => (hprod v hv).2
    rw [sum_affine V (fun v => v.1 / z) (4 * u) (4 * eta), hsumdiv] at h1
    have h2 : (V.map fun v => v.1 / z * (conf v.2 x).val).sum = (V.map fun v => v.1 * (conf v.2 x).val).sum / z := by
      rw [div_eq_mul_inv, ← List.sum_map_mul_right]
      congr 1
      apply List.map_congr_left
      intro v _
      ring
    rw [h2] at h1
    refine h1.trans ?_
    have h3 : (V.length : ℝ) * (4 * eta) ≤ 900 * (4 * (1 / 10 ^ 60)) := by gcongr
    have h4 : 4 * u * (W / z) ≤ 4 * (1 / 9000000000000000) * (11 / 10) := by
      apply mul_le_mul (by linarith) hWz (div_nonneg (by linarith) hz0.le) (by norm_num)
    linarith
  have hTabs : (T.map (|·|)).sum ≤ 3 := by
    rw [hT, List.map_map]
    have h1 : (V.map ((|·|) ∘ fun v => round (round (v.1 / z) * (conf v.2 x).val))).sum ≤ (V.map fun v => 2 * (v.1 / z) + 4 * eta).sum := by
      apply List.sum_le_sum
      intro v hv
      obtain ⟨c, hc, hc1⟩ := hx v hv
      obtain ⟨h1, h2⟩ := hvz v hv
      have h3 := (hprod v hv).2
      have h4 : |v.1 / z * (conf v.2 x).val| ≤ v.1 / z := by
        rw [hc, abs_mul, abs_of_pos h1]; exact mul_le_of_le_one_right h1.le hc1
      have h5 := abs_add_le (round (round (v.1 / z) * (conf v.2 x).val) - v.1 / z * (conf v.2 x).val) (v.1 / z * (conf v.2 x).val)
      rw [sub_add_cancel] at h5
      simp only [Function.comp]
      nlinarith
    rw [sum_affine V (fun v => v.1 / z) 2 (4 * eta), hsumdiv] at h1
    have h3 : (V.length : ℝ) * (4 * eta) ≤ 900 * (4 * (1 / 10 ^ 60)) := by gcongr
    linarith
  obtain ⟨F, hF, -, hFe⟩ := foldl_add_err 3 (by norm_num) (by norm_num) T 0 0 0 rep_zero (by simp) (by rw [abs_zero, zero_add]; exact hTabs)
    (by rw [hT, List.length_map]; omega)
  refine ⟨F, ?_, ?_⟩
  · unfold weightedConf
    rw [← hF, hT, List.zipWith_map, List.zipWith_self, List.map_map]
    congr 1
    exact List.map_congr_left fun v hv => (hprod v hv).1
  · simp only [zero_add] at hFe
    have h1 : |F - T.sum| ≤ 1 / 10 ^ 12 := by
      refine hFe.trans ?_
      rw [hT, List.length_map]
      calc 2 * u * 3 * (V.length : ℝ) ≤ 2 * (1 / 9000000000000000) * 3 * 900 := by gcongr
        _ ≤ _ := by norm_num
    have h2 := abs_add_le (F - T.sum) (T.sum - (V.map fun v => v.1 * (conf v.2 x).val).sum / z)
    rw [sub_add_sub_cancel] at h2
    linarith

end F64

end Miniboosts
