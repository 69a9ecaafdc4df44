import Verif.Lemmas.FloatSmoothPot

/-! The vote that SmoothBoost returns, in `f64`. -/

namespace Miniboosts

open F64

namespace SmoothBoostF

/-- Equal votes stay equal and are close to `1/k`. -/
theorem uniform_fin {w : ℝ} (hw : Rep w) (h0 : 1 / 10 ^ 30 ≤ w) (h1 : w ≤ 1) {k : ℕ} (hk : 1 ≤ k) (hk5 : k ≤ 10 ^ 5) :
    ∃ v, F64.normalize (List.replicate k (fin w)) = .ok (List.replicate k (fin v)) ∧ Rep v ∧ |v - 1 / k| ≤ 1 / 10 ^ 8 * (1 / k) := by
  classical
  have hu := u_small
  have hu0 := u_pos
  have het := eta_tiny
  have hw0 : 0 < w := lt_of_lt_of_le (by norm_num) h0
  have hk1 : (1 : ℝ) ≤ k := by exact_mod_cast hk
  have hkr : (k : ℝ) ≤ 10 ^ 5 := by exact_mod_cast hk5
  obtain ⟨z, hz, hzr, hnear⟩ := foldl_near0 (List.replicate k w) (fun x hx => by rw [List.eq_of_mem_replicate hx]; exact ⟨hw0.le, hw⟩)
    (by rw [List.sum_replicate, nsmul_eq_mul]; exact (mul_le_mul hkr h1 hw0.le (by norm_num)).trans (by norm_num)) (by rw [List.length_replicate]; omega)
  rw [List.sum_replicate, nsmul_eq_mul, List.length_replicate] at hnear
  have hkw : 0 < k * w := by positivity
  obtain ⟨b1, b2⟩ := hnear.bound (by omega) hkw.le
  have hz0 : 0 < z := lt_of_lt_of_le (by norm_num; exact hkw) b1
  set q := w / z with hq
  have hq0 : 0 < q := by positivity
  have hqz : q * z = w := by rw [hq]; field_simp
  have hkq1 : k * q * (1 - 1 / 10 ^ 9) ≤ 1 := by
    have : q * ((1 - 1 / 10 ^ 9) * (k * w)) ≤ q * z := mul_le_mul_of_nonneg_left b1 hq0.le
    rw [hqz] at this
    have h2 : (k * q * (1 - 1 / 10 ^ 9)) * w ≤ 1 * w := by linarith
    exact le_of_mul_le_mul_right h2 hw0
  have hkq2 : 1 ≤ k * q * (1 + 1 / 10 ^ 9) := by
    have : q * z ≤ q * ((1 + 1 / 10 ^ 9) * (k * w)) := mul_le_mul_of_nonneg_left b2 hq0.le
    rw [hqz] at this
    have h2 : 1 * w ≤ (k * q * (1 + 1 / 10 ^ 9)) * w := by linarith
    exact le_of_mul_le_mul_right h2 hw0
  have hkq : k * q ≤ 2 := by norm_num at hkq1; linarith
  have hq2 : q ≤ 2 := by nlinarith
  have hre := round_err q
  rw [abs_of_pos hq0] at hre
  have hdiv : div (fin w) (fin z) = fin (F64.round q) := by
    simp only [div, if_neg hz0.ne']
    exact rnd_small (by rw [abs_of_pos hq0]; norm_num; linarith)
  refine ⟨F64.round q, ?_, rep_round _, ?_⟩
  · have hzz : ((List.replicate k (fin w)).map F64.abs).foldl add (fin 0) = fin z := by
      rw [List.map_replicate] at hz ⊢
      rw [← hz]
      simp only [F64.abs, abs_of_pos hw0]
    unfold F64.normalize
    refine (if_neg ?_).trans ?_
    · rw [hzz]; intro h; injection h with h; exact hz0.ne' h
    · rw [hzz, List.map_replicate, hdiv]
  · have hk0 : (0 : ℝ) < k := by linarith
    have hke : k * eta ≤ 1 / 10 ^ 50 := by
      calc k * eta ≤ 10 ^ 5 * (1 / 10 ^ 60) := mul_le_mul hkr het eta_pos.le (by norm_num)
        _ ≤ _ := by norm_num
    have hkr2 : |k * F64.round q - k * q| ≤ 4 / 10 ^ 15 := by
      rw [← mul_sub, abs_mul, abs_of_pos hk0]
      have := mul_le_mul_of_nonneg_left hre hk0.le
      have h3 : u * (k * q) ≤ 1 / 9000000000000000 * 2 := mul_le_mul hu hkq (by positivity) (by norm_num)
      norm_num at hke h3 ⊢
      linarith
    have h4 : |k * F64.round q - 1| ≤ 1 / 10 ^ 8 := by
      have a := abs_le.mp hkr2
      rw [abs_le]
      norm_num at a hkq1 hkq2 ⊢
      constructor <;> linarith [a.1, a.2]
    have h5 : F64.round q - 1 / k = (k * F64.round q - 1) * (1 / k) := by field_simp
    rw [h5, abs_mul, abs_of_pos (show (0 : ℝ) < 1 / k by positivity)]
    exact mul_le_mul_of_nonneg_right h4 (by positivity)

theorem zip_replicate {α β : Type*} (w : β) (k : Nat) (l : List α) :
    ((List.replicate k w).zip l).map Prod.fst = List.replicate (min k l.length) w ∧ ((List.replicate k w).zip l).map Prod.snd = l.take k := by
  induction k generalizing l with
  | zero => simp
  | succ k ih =>
    cases l with
    | nil => simp
    | cons a l => simp [List.replicate_succ, ih, Nat.succ_min_succ]

variable {H X : Type*}

/-- The final construction. -/
theorem postprocess_fin (s : SmoothBoostF H) (ht : 1 ≤ s.terminated) (ht2 : s.terminated ≤ 2 ^ 64 - 1) (hn : 1 ≤ s.nSample)
    (hn5 : s.nSample ≤ 10 ^ 5) (hh : s.hypotheses ≠ []) :
    ∃ v, postprocess s = .ok ⟨List.replicate (min s.nSample s.hypotheses.length) (fin v), s.hypotheses.take s.nSample⟩ ∧ Rep v ∧
      |v - 1 / (min s.nSample s.hypotheses.length : ℕ)| ≤ 1 / 10 ^ 8 * (1 / (min s.nSample s.hypotheses.length : ℕ)) := by
  classical
  have hu := u_small
  have het := eta_tiny
  have hl : 1 ≤ s.hypotheses.length := List.length_pos_iff.mpr hh
  have hT1 : (1 : ℝ) ≤ s.terminated := by exact_mod_cast ht
  have hT2 : (s.terminated : ℝ) ≤ 2 ^ 64 := by
    have : s.terminated ≤ 2 ^ 64 := by omega
    exact_mod_cast this
  have r1 : 1 ≤ F64.round s.terminated := rep_le_round rep_one hT1
  have r2 : F64.round s.terminated ≤ 2 ^ 64 := round_le_rep ⟨1, 64, by norm_num, by norm_num, by norm_num⟩ hT2
  have e1 : rnd (s.terminated : ℝ) = fin (F64.round s.terminated) :=
    rnd_small (by rw [abs_of_pos (by linarith)]; exact hT2.trans (by norm_num))
  set t := F64.round s.terminated with htd
  have ht0 : 0 < t := by linarith
  have q1 : 1 / t ≤ 1 := by rw [div_le_one ht0]; exact r1
  have q2 : 1 / 2 ^ 64 ≤ 1 / t := one_div_le_one_div_of_le ht0 r2
  have e2 : div (fin 1) (fin t) = fin (F64.round (1 / t)) := by
    simp only [div, if_neg ht0.ne']
    exact rnd_small (by rw [abs_of_pos (by positivity)]; norm_num; norm_num at q1; linarith)
  have hre := (abs_le.mp (round_err (1 / t))).1
  rw [abs_of_pos (show 0 < 1 / t by positivity)] at hre
  have w1 : F64.round (1 / t) ≤ 1 := round_le_rep rep_one q1
  have w0 : 1 / 10 ^ 30 ≤ F64.round (1 / t) := by
    have : u * (1 / t) ≤ 1 / 9000000000000000 * (1 / t) := mul_le_mul_of_nonneg_right hu (by positivity)
    generalize 1 / t = a at *
    norm_num at this het q2 ⊢
    linarith
  obtain ⟨v, v1, v2, v3⟩ := uniform_fin (rep_round _) w0 w1 (k := min s.nSample s.hypotheses.length) (by omega) (by omega)
  refine ⟨v, ?_, v2, v3⟩
  have hw0 : 0 < F64.round (1 / t) := lt_of_lt_of_le (by norm_num) w0
  unfold postprocess F64.fromSlices
  rw [e1, e2]
  have hkeep : ((List.replicate s.nSample (fin (F64.round (1 / t)))).zip s.hypotheses).filter
      (fun p => @decide (Lt (fin 0) p.1) (Classical.propDecidable _)) = (List.replicate s.nSample (fin (F64.round (1 / t)))).zip s.hypotheses := by
    rw [List.filter_eq_self]
    intro p hp
    refine @decide_eq_true _ (Classical.propDecidable _) ?_
    rw [List.eq_of_mem_replicate (List.of_mem_zip hp).1]
    exact hw0
  simp only
  rw [hkeep, (zip_replicate _ _ _).1, (zip_replicate _ _ _).2, v1]
  rfl

variable [Classifier H X F64]

/-- The confidence of equal votes. -/
theorem vote_uniform {v : ℝ} {hs : List H} (hk : 1 ≤ hs.length) (hk5 : hs.length ≤ 10 ^ 5) (hv : |v - 1 / hs.length| ≤ 1 / 10 ^ 8 * (1 / hs.length))
    {x : X} (hc : ∀ h ∈ hs, ∃ c : ℝ, conf h x = fin c ∧ |c| ≤ 1) :
    ∃ F, F64.weightedConf ⟨List.replicate hs.length (fin v), hs⟩ x = fin F ∧ |F - (hs.map fun h => (conf h x).val).sum / hs.length| ≤ 3 / 10 ^ 8 := by
  have hu := u_small
  have hu0 := u_pos
  have het := eta_tiny
  have het0 := eta_pos
  have hk1 : (1 : ℝ) ≤ hs.length := by exact_mod_cast hk
  have hkr : (hs.length : ℝ) ≤ 10 ^ 5 := by exact_mod_cast hk5
  set k : ℝ := (hs.length : ℝ) with hkd
  have hk0 : 0 < k := by linarith
  have hik : 0 < 1 / k := by positivity
  have hik5 : 1 / 10 ^ 5 ≤ 1 / k := one_div_le_one_div_of_le hk0 hkr
  have hik1 : 1 / k ≤ 1 := by rw [div_le_one hk0]; exact hk1
  have hv' := abs_le.mp hv
  have hva : |v| ≤ 2 * (1 / k) := by rw [abs_le]; norm_num at hv' ⊢; constructor <;> linarith [hv'.1, hv'.2]
  have hterm : ∀ h ∈ hs, mul (fin v) (conf h x) = fin (F64.round (v * (conf h x).val)) ∧
      |F64.round (v * (conf h x).val) - (conf h x).val * (1 / k)| ≤ 2 / 10 ^ 8 * (1 / k) := by
    intro h hh
    obtain ⟨c, hcf, hc1⟩ := hc h hh
    rw [hcf]
    have hval : (fin c).val = c := rfl
    rw [hval]
    have hvc : |v * c| ≤ 2 * (1 / k) := by rw [abs_mul]; nlinarith [abs_nonneg v, abs_nonneg c]
    refine ⟨rnd_small (hvc.trans (by norm_num at hik1 ⊢; linarith)), ?_⟩
    have h1 := round_err (v * c)
    have h2 : |v * c - c * (1 / k)| ≤ 1 / 10 ^ 8 * (1 / k) := by
      rw [show v * c - c * (1 / k) = (v - 1 / k) * c by ring, abs_mul]
      nlinarith [abs_nonneg (v - 1 / k), abs_nonneg c]
    have h3 := abs_add_le (F64.round (v * c) - v * c) (v * c - c * (1 / k))
    rw [sub_add_sub_cancel] at h3
    have h4 : u * |v * c| ≤ 1 / 9000000000000000 * (2 * (1 / k)) := mul_le_mul hu hvc (abs_nonneg _) (by norm_num)
    linarith only [h2, h4, het, hik5, h1, h3]
  have hlist : List.zipWith (fun w h => mul w (conf h x)) (List.replicate hs.length (fin v)) hs =
      (hs.map fun h => F64.round (v * (conf h x).val)).map fin := by
    have key : ∀ l : List H, (∀ h ∈ l, mul (fin v) (conf h x) = fin (F64.round (v * (conf h x).val))) →
        List.zipWith (fun w h => mul w (conf h x)) (List.replicate l.length (fin v)) l = (l.map fun h => F64.round (v * (conf h x).val)).map fin := by
      intro l
      induction l with
      | nil => intro _; rfl
      | cons a l ih =>
        intro h
        simp only [List.length_cons, List.replicate_succ, List.zipWith_cons_cons, List.map_cons]
        rw [ih fun b hb => h b (List.mem_cons_of_mem _ hb), h a (by simp)]
    exact key hs fun h hh => (hterm h hh).1
  have hsabs : ((hs.map fun h => F64.round (v * (conf h x).val)).map (|·|)).sum ≤ 2 := by
    rw [List.map_map]
    have h1 := sum_le_const hs (fun h => |F64.round (v * (conf h x).val)|) (2 * (1 / k)) fun h hh => by
      obtain ⟨c, hcf, hc1⟩ := hc h hh
      have h2 := abs_le.mp (hterm h hh).2
      have h3 : (conf h x).val = c := by rw [hcf]; rfl
      have h4 := abs_le.mp hc1
      rw [abs_le]
      rw [h3] at h2 ⊢
      norm_num at h2 ⊢
      constructor <;> nlinarith
    refine h1.trans ?_
    rw [← hkd]
    have : k * (1 / k) = 1 := by field_simp
    linarith
  obtain ⟨F, hF, -, hFe⟩ := foldl_add_err 2 (by norm_num) (by norm_num) (hs.map fun h => F64.round (v * (conf h x).val)) 0 0 0 rep_zero (by simp)
    (by rw [abs_zero, zero_add]; exact hsabs) (by simp; omega)
  refine ⟨F, ?_, ?_⟩
  · unfold F64.weightedConf
    rw [hlist]
    exact hF
  · simp only [zero_add, List.length_map] at hFe
    have h1 := sum_close hs (fun h => F64.round (v * (conf h x).val)) (fun h => (conf h x).val * (1 / k)) (fun _ => 2 / 10 ^ 8 * (1 / k))
      fun h hh => (hterm h hh).2
    rw [List.sum_map_mul_right] at h1
    simp only [List.map_const', List.sum_replicate, nsmul_eq_mul] at h1
    rw [← hkd] at h1 hFe
    have h2 : k * (2 / 10 ^ 8 * (1 / k)) = 2 / 10 ^ 8 := by field_simp
    rw [h2] at h1
    have h3 := abs_add_le (F - (hs.map fun h => F64.round (v * (conf h x).val)).sum)
      ((hs.map fun h => F64.round (v * (conf h x).val)).sum - (hs.map fun h => (conf h x).val).sum * (1 / k))
    rw [sub_add_sub_cancel] at h3
    have h4 : 2 * u * 2 * k ≤ 2 * (1 / 9000000000000000) * 2 * 10 ^ 5 := by gcongr
    rw [div_eq_mul_one_div]
    linarith only [h1, h4, h3, hFe]

end SmoothBoostF

end Miniboosts
