import Verif.Lemmas.FloatMadaDist
import Verif.Lemmas.FloatSum

/-! # One round of MadaBoost in `f64` -/

namespace Miniboosts

namespace F64

variable {H X : Type*} [Classifier H X F64]

/-- The edge for weights that may be zero. -/
theorem edge_fin_nonneg {S : Examples X ℝ} (hS : ∀ e ∈ S, e.2 = 1 ∨ e.2 = -1) (hn : S.length ≤ 10 ^ 5) (Q : List ((X × ℝ) × ℝ)) (hQ : Q.map Prod.fst = S)
    (hx : ∀ p ∈ Q, 0 ≤ p.2) (hs : |(Q.map Prod.snd).sum - 1| ≤ 3 / 10 ^ 6) (f : H) (hc : ∀ e ∈ S, ∃ c, conf f e.1 = fin c ∧ |c| ≤ 1) {r : F64}
    (h : Inner (F64.margins S f) (Q.map fun p => fin p.2) r) :
    F64.margins S f = (Q.map fun p => fin (marg f p.1)) ∧ (∀ p ∈ Q, |marg f p.1| ≤ 1 ∧ |marg f p.1 - p.1.2 * (conf f p.1.1).val| ≤ 2 * u) ∧
    ∃ e, r = fin e ∧ Rep e ∧ |e - (Q.map fun p => p.2 * (p.1.2 * (conf f p.1.1).val)).sum| ≤ 1 / 10 ^ 9 := by
  have hu := u_small
  have hu0 := u_pos
  have het := eta_tiny
  have het0 := eta_pos
  have hQS : ∀ p ∈ Q, p.1 ∈ S := fun p hp => hQ ▸ List.mem_map_of_mem hp
  have hlen : Q.length = S.length := by rw [← hQ]; simp
  have hmarg : ∀ p ∈ Q, mul (fin p.1.2) (conf f p.1.1) = fin (marg f p.1) ∧ |marg f p.1| ≤ 1 ∧ |marg f p.1 - p.1.2 * (conf f p.1.1).val| ≤ 2 * u := by
    intro p hp
    obtain ⟨c, h1, h2⟩ := hc p.1 (hQS p hp)
    have := marg_le (h := f) (hS p.1 (hQS p hp)) h1 h2
    rwa [show (conf f p.1.1).val = c by rw [h1]; rfl]
  have hmargins : F64.margins S f = Q.map fun p => fin (marg f p.1) := by
    have : F64.margins S f = Q.map fun p => mul (fin p.1.2) (conf f p.1.1) := by rw [← hQ]; simp [F64.margins, Function.comp_def]
    rw [this]
    exact List.map_congr_left fun p hp => (hmarg p hp).1
  have hs' := abs_le.mp hs
  norm_num at hs'
  have hn' : (Q.length : ℝ) ≤ 100000 := by rw [hlen]; exact_mod_cast (by omega : S.length ≤ 100000)
  have hl0 : (0 : ℝ) ≤ Q.length := Nat.cast_nonneg _
  obtain ⟨t, ht, hedge⟩ := h
  have hprod : ∀ p ∈ Q, mul (fin (marg f p.1)) (fin p.2) = fin (round (marg f p.1 * p.2)) ∧ |round (marg f p.1 * p.2) - marg f p.1 * p.2| ≤ u * p.2 + eta ∧
      |round (marg f p.1 * p.2)| ≤ 3 / 2 * p.2 + eta := by
    intro p hp
    have h1 := hx p hp
    have h2 : |marg f p.1 * p.2| ≤ p.2 := by rw [abs_mul, abs_of_nonneg h1]; nlinarith [(hmarg p hp).2.1]
    have h3 : p.2 ≤ (Q.map Prod.snd).sum := List.single_le_sum (by
      simp only [List.mem_map]; rintro _ ⟨a, ha, rfl⟩; exact hx a ha) _ (List.mem_map_of_mem hp)
    have h4 : |round (marg f p.1 * p.2) - marg f p.1 * p.2| ≤ u * p.2 + eta := (round_err _).trans (by gcongr)
    refine ⟨rnd_small (h2.trans (by norm_num; linarith)), h4, ?_⟩
    have := abs_add_le (round (marg f p.1 * p.2) - marg f p.1 * p.2) (marg f p.1 * p.2)
    rw [sub_add_cancel] at this
    nlinarith
  have hitems : t.items = (Q.map fun p => round (marg f p.1 * p.2)).map fin := by
    rw [ht, hmargins, List.zipWith_map, List.zipWith_self, List.map_map]
    exact List.map_congr_left fun p hp => (hprod p hp).1
  have hleta : (Q.length : ℝ) * eta ≤ 1 / 10 ^ 50 := by
    calc (Q.length : ℝ) * eta ≤ 100000 * (1 / 10 ^ 60) := by gcongr
      _ ≤ _ := by norm_num
  have habs : (((Q.map fun p => round (marg f p.1 * p.2)).map (|·|))).sum ≤ 2 := by
    rw [List.map_map]
    have h1 : (Q.map ((|·|) ∘ fun p => round (marg f p.1 * p.2))).sum ≤ (Q.map fun p => 3 / 2 * p.2 + eta).sum :=
      List.sum_le_sum fun p hp => (hprod p hp).2.2
    rw [sum_affine Q (fun p => p.2) (3 / 2) eta] at h1
    have h2 : (Q.map fun p => p.2).sum = (Q.map Prod.snd).sum := rfl
    rw [h2] at h1
    linarith
  obtain ⟨e, he, hrep, hee, -⟩ := split_sum_err t _ hitems habs (by rw [List.length_map, hlen]; exact hn)
  rw [List.length_map] at hee
  have d1 : |e - (Q.map fun p => round (marg f p.1 * p.2)).sum| ≤ 1 / 10 ^ 10 := by
    refine hee.trans ?_
    have : 8 * u * Q.length ≤ 8 * (1 / 9000000000000000) * 100000 := by gcongr
    linarith
  have hsnd : (Q.map fun p => p.2).sum = (Q.map Prod.snd).sum := rfl
  have d2 : |(Q.map fun p => round (marg f p.1 * p.2)).sum - (Q.map fun p => marg f p.1 * p.2).sum| ≤ 1 / 10 ^ 12 := by
    refine (sum_close Q _ _ (fun p => u * p.2 + eta) fun p hp => (hprod p hp).2.1).trans ?_
    rw [sum_affine Q (fun p => p.2) u eta, hsnd]
    nlinarith
  have d3 : |(Q.map fun p => marg f p.1 * p.2).sum - (Q.map fun p => p.2 * (p.1.2 * (conf f p.1.1).val)).sum| ≤ 1 / 10 ^ 12 := by
    refine (sum_close Q _ _ (fun p => (2 * u) * p.2 + 0) fun p hp => ?_).trans ?_
    · have h1 := hx p hp
      rw [show marg f p.1 * p.2 - p.2 * (p.1.2 * (conf f p.1.1).val) = (marg f p.1 - p.1.2 * (conf f p.1.1).val) * p.2 by ring, abs_mul, abs_of_nonneg h1,
        add_zero]
      exact mul_le_mul_of_nonneg_right (hmarg p hp).2.2 h1
    · rw [sum_affine Q (fun p => p.2) (2 * u) 0, hsnd, mul_zero, add_zero]
      nlinarith
  have d1' := abs_le.mp d1
  have d2' := abs_le.mp d2
  have d3' := abs_le.mp d3
  refine ⟨hmargins, fun p hp => (hmarg p hp).2, e, by rw [hedge, he], hrep, ?_⟩
  rw [abs_le]; constructor <;> linarith


/-- Votes between `10⁻⁵` and `13` of at most `3000` hypotheses. -/
theorem vote_wide (V : List (ℝ × H)) (h0 : V ≠ []) (hl : V.length ≤ 3000) (hV : ∀ v ∈ V, 1 / 10 ^ 5 ≤ v.1 ∧ v.1 ≤ 13 ∧ Rep v.1) :
    ∃ f, fromSlices (V.map fun v => fin v.1) (V.map Prod.snd) = .ok f ∧ f.hypotheses = V.map Prod.snd ∧
      ∀ x : X, (∀ v ∈ V, ∃ c : ℝ, conf v.2 x = fin c ∧ |c| ≤ 1) →
        ∃ F : ℝ, weightedConf f x = fin F ∧ |F - (V.map fun v => v.1 * (conf v.2 x).val).sum / (V.map fun v => v.1).sum| ≤ 1 / 10 ^ 8 := by
  have hu := u_small
  have hu0 := u_pos
  have het := eta_tiny
  have het0 := eta_pos
  have hl1 : (1 : ℝ) ≤ V.length := by exact_mod_cast List.length_pos_iff.mpr h0
  have hl2 : (V.length : ℝ) ≤ 3000 := by exact_mod_cast hl
  have hpos : ∀ v ∈ V, 0 < v.1 := fun v hv => lt_of_lt_of_le (by norm_num) (hV v hv).1
  set W := (V.map fun v => v.1).sum with hW
  have hWhi : W ≤ V.length * 13 := sum_le_const V _ 13 fun v hv => (hV v hv).2.1
  have hWlo : V.length * (1 / 10 ^ 5) ≤ W := const_le_sum V _ _ fun v hv => (hV v hv).1
  have hWlo' : 1 / 10 ^ 5 ≤ W := by linarith
  norm_num at hWlo'
  obtain ⟨z, hz, -, hnear⟩ := foldl_near0 (V.map fun v => v.1) (by
    simp only [List.mem_map]; rintro _ ⟨v, hv, rfl⟩; exact ⟨(hpos v hv).le, (hV v hv).2.2⟩) (by rw [← hW]; norm_num; linarith) (by simp; omega)
  obtain ⟨hz1, hz2⟩ := hnear.bound (by simp; omega) (by rw [← hW]; linarith)
  rw [← hW] at hz1 hz2
  norm_num at hz1 hz2
  have hz0 : 0 < z := by linarith
  have hWz : W / z ≤ 11 / 10 := by rw [div_le_iff₀ hz0]; linarith
  -- the normalised votes
  have hvz : ∀ v ∈ V, 0 < v.1 / z ∧ v.1 / z ≤ 10 ^ 7 := by
    intro v hv
    refine ⟨div_pos (hpos v hv) hz0, ?_⟩
    rw [div_le_iff₀ hz0]
    have := (hV v hv).2.1
    norm_num
    linarith
  have hdiv : ∀ v ∈ V, div (fin v.1) (fin z) = fin (round (v.1 / z)) ∧ |round (v.1 / z) - v.1 / z| ≤ u * (v.1 / z) + eta := by
    intro v hv
    obtain ⟨h1, h2⟩ := hvz v hv
    have h3 := round_err (v.1 / z)
    rw [abs_of_pos h1] at h3
    refine ⟨?_, h3⟩
    simp only [div, if_neg hz0.ne']
    exact rnd_small (by rw [abs_of_pos h1]; linarith)
  have hzip : ((V.map fun v => fin v.1).zip (V.map Prod.snd)) = V.map fun v => (fin v.1, v.2) := by
    rw [List.zip_map']
  have hfilter : ((V.map fun v => fin v.1).zip (V.map Prod.snd)).filter (fun p => @decide (Lt (fin 0) p.1) (Classical.propDecidable _)) =
      V.map fun v => (fin v.1, v.2) := by
    rw [hzip]
    apply List.filter_eq_self.mpr
    simp only [List.mem_map]
    rintro _ ⟨v, hv, rfl⟩
    refine @decide_eq_true _ (Classical.propDecidable _) ?_
    exact hpos v hv
  have hnorm : normalize (V.map fun v => fin v.1) = .ok (V.map fun v => fin (round (v.1 / z))) := by
    have hzz : ((V.map fun v => fin v.1).map F64.abs).foldl add (fin 0) = fin z := by
      rw [← hz, List.map_map, List.map_map]
      congr 1
      apply List.map_congr_left
      intro v hv
      simp only [Function.comp, F64.abs, abs_of_pos (hpos v hv)]
    unfold normalize
    refine (if_neg ?_).trans ?_
    · rw [hzz]; intro h; injection h with h; exact hz0.ne' h
    · rw [hzz, List.map_map]
      congr 1
      exact List.map_congr_left fun v hv => (hdiv v hv).1
  refine ⟨⟨V.map fun v => fin (round (v.1 / z)), V.map Prod.snd⟩, ?_, rfl, ?_⟩
  · unfold fromSlices
    simp only
    rw [hfilter, List.map_map, List.map_map]
    have : normalize (V.map (Prod.fst ∘ fun v => (fin v.1, v.2))) = .ok (V.map fun v => fin (round (v.1 / z))) := hnorm
    rw [this]
    rfl
  intro x hx
  have hprod : ∀ v ∈ V, mul (fin (round (v.1 / z))) (conf v.2 x) = fin (round (round (v.1 / z) * (conf v.2 x).val)) ∧
      |round (round (v.1 / z) * (conf v.2 x).val) - v.1 / z * (conf v.2 x).val| ≤ 4 * u * (v.1 / z) + 4 * eta := by
    intro v hv
    obtain ⟨c, hc, hc1⟩ := hx v hv
    obtain ⟨h1, h2⟩ := hvz v hv
    have h3 := abs_le.mp (hdiv v hv).2
    rw [hc]
    have hval : (fin c).val = c := rfl
    rw [hval]
    have hr1 : |round (v.1 / z)| ≤ 2 * (v.1 / z) + eta := by rw [abs_le]; constructor <;> nlinarith
    have hr2 : |round (v.1 / z) * c| ≤ 2 * (v.1 / z) + eta := by
      rw [abs_mul]; nlinarith [abs_nonneg (round (v.1 / z)), abs_nonneg c]
    refine ⟨rnd_small (hr2.trans (by linarith)), ?_⟩
    have h4 := round_err (round (v.1 / z) * c)
    have h5 : |round (v.1 / z) * c - v.1 / z * c| ≤ u * (v.1 / z) + eta := by
      rw [← sub_mul, abs_mul]
      have := (hdiv v hv).2
      nlinarith [abs_nonneg (round (v.1 / z) - v.1 / z), abs_nonneg c]
    have h6 := abs_add_le (round (round (v.1 / z) * c) - round (v.1 / z) * c) (round (v.1 / z) * c - v.1 / z * c)
    rw [sub_add_sub_cancel] at h6
    have h7 : u * |round (v.1 / z) * c| ≤ u * (2 * (v.1 / z) + eta) := by gcongr
    nlinarith
  set T := V.map fun v => round (round (v.1 / z) * (conf v.2 x).val) with hT
  have hsumdiv : (V.map fun v => v.1 / z).sum = W / z := by
    rw [hW, div_eq_mul_inv, ← List.sum_map_mul_right]; rfl
  have hterm : |T.sum - (V.map fun v => v.1 * (conf v.2 x).val).sum / z| ≤ 1 / 10 ^ 14 := by
    have h1 := sum_close V (fun v => round (round (v.1 / z) * (conf v.2 x).val)) (fun v => v.1 / z * (conf v.2 x).val)
      (fun v => (4 * u) * (v.1 / z) + 4 * eta) fun v hv => (hprod v hv).2
    rw [sum_affine V (fun v => v.1 / z) (4 * u) (4 * eta), hsumdiv] at h1
    have h2 : (V.map fun v => v.1 / z * (conf v.2 x).val).sum = (V.map fun v => v.1 * (conf v.2 x).val).sum / z := by
      rw [div_eq_mul_inv, ← List.sum_map_mul_right]
      congr 1
      apply List.map_congr_left
      intro v _
      ring
    rw [h2] at h1
    refine h1.trans ?_
    have h3 : (V.length : ℝ) * (4 * eta) ≤ 3000 * (4 * (1 / 10 ^ 60)) := by gcongr
    have h4 : 4 * u * (W / z) ≤ 4 * (1 / 9000000000000000) * (11 / 10) := by
      apply mul_le_mul (by linarith) hWz (div_nonneg (by linarith) hz0.le) (by norm_num)
    linarith
  have hTabs : (T.map (|·|)).sum ≤ 3 := by
    rw [hT, List.map_map]
    have h1 : (V.map ((|·|) ∘ fun v => round (round (v.1 / z) * (conf v.2 x).val))).sum ≤ (V.map fun v => 2 * (v.1 / z) + 4 * eta).sum := by
      apply List.sum_le_sum
      intro v hv
      obtain ⟨c, hc, hc1⟩ := hx v hv
      obtain ⟨h1, h2⟩ := hvz v hv
      have h3 := (hprod v hv).2
      have h4 : |v.1 / z * (conf v.2 x).val| ≤ v.1 / z := by
        rw [hc, abs_mul, abs_of_pos h1]; exact mul_le_of_le_one_right h1.le hc1
      have h5 := abs_add_le (round (round (v.1 / z) * (conf v.2 x).val) - v.1 / z * (conf v.2 x).val) (v.1 / z * (conf v.2 x).val)
      rw [sub_add_cancel] at h5
      simp only [Function.comp]
      nlinarith
    rw [sum_affine V (fun v => v.1 / z) 2 (4 * eta), hsumdiv] at h1
    have h3 : (V.length : ℝ) * (4 * eta) ≤ 3000 * (4 * (1 / 10 ^ 60)) := by gcongr
    linarith
  obtain ⟨F, hF, -, hFe⟩ := foldl_add_err 3 (by norm_num) (by norm_num) T 0 0 0 rep_zero (by simp) (by rw [abs_zero, zero_add]; exact hTabs)
    (by rw [hT, List.length_map]; omega)
  refine ⟨F, ?_, ?_⟩
  · unfold weightedConf
    rw [← hF, hT, List.zipWith_map, List.zipWith_self, List.map_map]
    congr 1
    exact List.map_congr_left fun v hv => (hprod v hv).1
  · simp only [zero_add] at hFe
    have h1 : |F - T.sum| ≤ 1 / 10 ^ 11 := by
      refine hFe.trans ?_
      rw [hT, List.length_map]
      calc 2 * u * 3 * (V.length : ℝ) ≤ 2 * (1 / 9000000000000000) * 3 * 3000 := by gcongr
        _ ≤ _ := by norm_num
    have h2 := abs_add_le (F - T.sum) (T.sum - (V.map fun v => v.1 * (conf v.2 x).val).sum / z)
    rw [sub_add_sub_cancel] at h2
    set A := (V.map fun v => v.1 * (conf v.2 x).val).sum with hA
    have hAW : |A| ≤ W := by
      have h3 := sum_close V (fun v => v.1 * (conf v.2 x).val) (fun _ => 0) (fun v => v.1) (by
        intro v hv
        obtain ⟨c, hc, hc1⟩ := hx v hv
        have : (conf v.2 x).val = c := by rw [hc]; rfl
        rw [this, sub_zero, abs_mul, abs_of_pos (hpos v hv)]
        exact mul_le_of_le_one_right (hpos v hv).le hc1)
      simpa using h3
    have hW0 : 0 < W := by linarith
    have h3 : |A / z - A / W| ≤ 2 / 10 ^ 9 := by
      have e : A / z - A / W = A / W * ((W - z) / z) := by field_simp
      rw [e, abs_mul, abs_div, abs_div, abs_of_pos hW0, abs_of_pos hz0]
      have h4 : |A| / W ≤ 1 := by rw [div_le_one hW0]; exact hAW
      have h5 : |W - z| / z ≤ 2 / 10 ^ 9 := by
        rw [div_le_iff₀ hz0, abs_le]
        constructor <;> norm_num <;> linarith
      calc |A| / W * (|W - z| / z) ≤ 1 * (2 / 10 ^ 9) := by gcongr
        _ = _ := by ring
    have h4 := abs_add_le (F - A / z) (A / z - A / W)
    rw [sub_add_sub_cancel] at h4
    norm_num at h1 h2 h3 hterm ⊢
    linarith

end F64

namespace MadaBoostF

open F64 Miniboosts.MadaBoost

/-- The vote of a round with the edge `e`. -/
theorem alpha_fin (L : Libm) {e : ℝ} (he : Rep e) (h1 : e < 1) (h2 : -(1 - 1 / 10 ^ 6) ≤ e) :
    ∃ a, alpha L (fin e) = fin a ∧ Rep a ∧ |a - Real.log (1 / betaOf e)| ≤ 1 / 10 ^ 10 ∧ |a| ≤ 13 := by
  have hu := u_small
  have hu0 := u_pos
  have het := eta_le_u
  obtain ⟨-, b, hb, hrel, hrep, hlo, hhi⟩ := params_fin he h1 h2
  obtain ⟨b1, b2, b3⟩ := hrel.bounds (by norm_num)
  have hB : 0 < betaOf e := hrel.1
  have t1 : Rel 43 (F64.round (1 / b)) (1 / betaOf e) := by
    have := ((Rel.refl one_pos).div hrel (by norm_num) (by norm_num) (by norm_num) (by norm_num)).round (by norm_num)
      (by rw [le_div_iff₀ hB]; norm_num; linarith)
    norm_num at this ⊢; exact this
  have hi0 : 1 / betaOf e ≤ 10 ^ 5 := by rw [div_le_iff₀ hB]; norm_num at hlo ⊢; linarith
  have hi1 : 1 / 2 ≤ 1 / betaOf e := by rw [le_div_iff₀ hB]; linarith
  have s1 : div (fin 1) (fin b) = fin (F64.round (1 / b)) := by
    refine (if_neg b3.ne').trans (rnd_small ?_)
    have := ((Rel.refl one_pos).div hrel (by norm_num) (by norm_num) (by norm_num) (by norm_num)).bounds (by norm_num)
    rw [abs_of_pos this.2.2]
    have := this.2.1
    norm_num at this hi0 ⊢; linarith
  have hpos := (t1.bounds (by norm_num)).2.2
  obtain ⟨-, hl⟩ := log_close t1.1 (c := 43 * u) (by linarith) t1.2
  have hl' := abs_le.mp hl
  have hlog1 : Real.log (1 / betaOf e) ≤ 12 := by
    rw [Real.log_le_iff_le_exp t1.1]
    refine hi0.trans ?_
    have h3 : Real.exp 12 = Real.exp 1 ^ 12 := by rw [← Real.exp_nat_mul]; norm_num
    have h4 : (271 / 100 : ℝ) ≤ Real.exp 1 := by have := Real.exp_one_gt_d9; linarith
    rw [h3]
    calc (10 ^ 5 : ℝ) ≤ (271 / 100) ^ 12 := by norm_num
      _ ≤ _ := by gcongr
  have hlog0 : -1 ≤ Real.log (1 / betaOf e) := by
    have := Real.log_le_log (by norm_num) hi1
    rw [one_div, Real.log_inv] at this
    have := Real.log_two_lt_d9
    rw [one_div] at *
    linarith
  obtain ⟨a, ha, hae⟩ := ln_fin L hpos (abs_le.mpr ⟨by linarith, by linarith⟩)
  have hra : Rep a := by
    simp only [ln, if_pos hpos, rnd] at ha
    split at ha
    · cases ha
    · cases ha; exact rep_round _
  have hab : |Real.log (F64.round (1 / b))| ≤ 13 := abs_le.mpr ⟨by linarith, by linarith⟩
  have hae' : |a - Real.log (F64.round (1 / b))| ≤ 131 * u := hae.trans (by nlinarith [abs_nonneg (Real.log (F64.round (1 / b)))])
  have hae2 := abs_le.mp hae'
  refine ⟨a, by unfold alpha; rw [hb, s1, ha], hra, ?_, ?_⟩
  · rw [abs_le]; constructor <;> linarith
  · rw [abs_le]; constructor <;> linarith

/-- A positive edge gives a positive vote. -/
theorem log_betaOf {e : ℝ} (h0 : 0 ≤ e) (h1 : e < 1) : e / 2 ≤ Real.log (1 / betaOf e) := by
  have hs : √(1 / 2 * (1 / 2 * (1 - e))) ≤ 1 / 2 * (1 - e / 2) := by
    rw [Real.sqrt_le_left (by linarith)]
    nlinarith
  have hs0 : 0 < √(1 / 2 * (1 / 2 * (1 - e))) := Real.sqrt_pos.mpr (by linarith)
  set E := √(1 / 2 * (1 / 2 * (1 - e))) with hE
  have hb : betaOf e = √(E / (1 - E)) := rfl
  have hq0 : 0 < E / (1 - E) := div_pos hs0 (by linarith)
  rw [hb, one_div, Real.log_inv, Real.log_sqrt hq0.le]
  have h2 : E / (1 - E) ≤ Real.exp (-e) := by
    have h3 : E / (1 - E) ≤ (1 - e / 2) / (1 + e / 2) := by
      rw [div_le_div_iff₀ (by linarith) (by linarith)]
      nlinarith
    refine h3.trans ?_
    -- `exp(e) ≤ (1 + e/2)/(1 - e/2)`
    have h4 : Real.exp e ≤ (1 + e / 2) / (1 - e / 2) := by
      have h5 := Real.hasSum_log_sub_log_of_abs_lt_one (x := e / 2) (by rw [abs_of_nonneg (by linarith)]; linarith)
      have h6 : e ≤ Real.log (1 + e / 2) - Real.log (1 - e / 2) := by
        have h7 := sum_le_hasSum (Finset.range 1) (fun i _ => by positivity) h5
        simp at h7
        linarith
      rw [← Real.log_div (by linarith) (by linarith)] at h6
      rwa [Real.le_log_iff_exp_le (div_pos (by linarith) (by linarith))] at h6
    rw [Real.exp_neg, ← one_div, div_le_div_iff₀ (by linarith) (Real.exp_pos e)]
    rw [le_div_iff₀ (by linarith)] at h4
    linarith
  have h3 := Real.log_le_log hq0 h2
  rw [Real.log_exp] at h3
  linarith

end MadaBoostF

end Miniboosts
