import Verif.Model.FloatMada
import Verif.Lemmas.FloatSmooth
import Verif.Lemmas.MadaBoost
import Verif.Lemmas.RoundingRun

/-! # The parameters of a round of MadaBoost in `f64` -/

namespace Miniboosts

namespace F64

/-- Relative closeness, `k` times the unit roundoff. -/
def Rel (k a b : ℝ) : Prop := 0 < b ∧ |a - b| ≤ k * u * b

theorem Rel.refl {b : ℝ} (h : 0 < b) : Rel 0 b b := ⟨h, by simp⟩

theorem Rel.mono {k l a b : ℝ} (h : Rel k a b) (hkl : k ≤ l) : Rel l a b :=
  ⟨h.1, h.2.trans (mul_le_mul_of_nonneg_right (mul_le_mul_of_nonneg_right hkl u_pos.le) h.1.le)⟩

theorem u_ge : 1 / 10 ^ 16 ≤ u := by rw [u_eq]; norm_num

theorem ku_small {k : ℝ} (h : k ≤ 1000) : k * u ≤ 1 / 10 ^ 12 := by
  have hu := u_small
  have hu0 := u_pos
  calc k * u ≤ 1000 * (1 / 9000000000000000) := by gcongr
    _ ≤ _ := by norm_num

theorem Rel.bounds {k a b : ℝ} (h : Rel k a b) (hk : k ≤ 1000) : (1 - 1 / 10 ^ 12) * b ≤ a ∧ a ≤ (1 + 1 / 10 ^ 12) * b ∧ 0 < a := by
  obtain ⟨hb, h⟩ := h
  have h1 := mul_le_mul_of_nonneg_right (ku_small hk) hb.le
  have h2 := abs_le.mp (h.trans h1)
  norm_num at h2 ⊢
  refine ⟨by linarith, by linarith, by linarith⟩

theorem Rel.round {k a b : ℝ} (h : Rel k a b) (hk : k ≤ 1000) (hb : 1 / 10 ^ 30 ≤ b) : Rel (k + 2) (F64.round a) b := by
  have hu := u_pos
  have hu1 := u_ge
  have he := eta_tiny
  obtain ⟨h1, h2, h3⟩ := h.bounds hk
  refine ⟨h.1, ?_⟩
  have h4 := round_err a
  rw [abs_of_pos h3] at h4
  have h5 : |F64.round a - b| ≤ |F64.round a - a| + |a - b| := by
    have := abs_add_le (F64.round a - a) (a - b)
    rwa [sub_add_sub_cancel] at this
  have h6 : eta ≤ 1 / 2 * (u * b) := by
    have : (1 / 10 ^ 16 : ℝ) * (1 / 10 ^ 30) ≤ u * b := by gcongr
    norm_num at this he ⊢
    linarith
  have h7 : u * a ≤ 3 / 2 * (u * b) := by
    have : a ≤ 3 / 2 * b := by have := h.1; norm_num at h2; linarith
    calc u * a ≤ u * (3 / 2 * b) := by gcongr
      _ = _ := by ring
  have h8 := h.2
  calc |F64.round a - b| ≤ (u * a + eta) + k * u * b := by linarith
    _ ≤ (k + 2) * u * b := by linarith

theorem Rel.half {k a b : ℝ} (h : Rel k a b) : Rel k (1 / 2 * a) (1 / 2 * b) := by
  obtain ⟨h1, h2⟩ := h
  refine ⟨by linarith, ?_⟩
  rw [← mul_sub, abs_mul, abs_of_pos (by norm_num : (0 : ℝ) < 1 / 2)]
  linarith

theorem Rel.sqrt {k a b : ℝ} (h : Rel k a b) (hk : k ≤ 1000) : Rel k (√a) (√b) := by
  obtain ⟨-, -, ha⟩ := h.bounds hk
  obtain ⟨hb, h2⟩ := h
  have hsa := Real.sqrt_pos.mpr ha
  have hsb := Real.sqrt_pos.mpr hb
  refine ⟨hsb, ?_⟩
  have e : a - b = (√a - √b) * (√a + √b) := by
    have h1 := Real.mul_self_sqrt ha.le
    have h3 := Real.mul_self_sqrt hb.le
    linear_combination -h1 + h3
  rw [e, abs_mul, abs_of_pos (by linarith : 0 < √a + √b)] at h2
  have h4 : |√a - √b| * √b ≤ (k * u * √b) * √b := by
    calc |√a - √b| * √b ≤ |√a - √b| * (√a + √b) := by gcongr; linarith
      _ ≤ k * u * b := h2
      _ = _ := by rw [mul_assoc (k * u), Real.mul_self_sqrt hb.le]
  exact le_of_mul_le_mul_right h4 hsb

theorem Rel.oneSub {k a b : ℝ} (h : Rel k a b) (hk : 0 ≤ k) (hb : b ≤ 71 / 100) : Rel (5 / 2 * k) (1 - a) (1 - b) := by
  obtain ⟨h1, h2⟩ := h
  have hu := u_pos
  refine ⟨by linarith, ?_⟩
  rw [show (1 - a) - (1 - b) = -(a - b) by ring, abs_neg]
  refine h2.trans ?_
  have : b ≤ 5 / 2 * (1 - b) := by linarith
  calc k * u * b ≤ k * u * (5 / 2 * (1 - b)) := by gcongr
    _ = _ := by ring

theorem Rel.div {k l a b c d : ℝ} (h : Rel k a b) (h' : Rel l c d) (hk0 : 0 ≤ k) (hk : k ≤ 1000) (hl0 : 0 ≤ l) (hl : l ≤ 1000) : Rel (k + l + 1) (a / c) (b / d) := by
  obtain ⟨a1, a2, a3⟩ := h.bounds hk
  obtain ⟨c1, c2, c3⟩ := h'.bounds hl
  obtain ⟨hb, h⟩ := h
  obtain ⟨hd, h'⟩ := h'
  have hu := u_pos
  have hus := u_small
  refine ⟨div_pos hb hd, ?_⟩
  rw [div_sub_div _ _ c3.ne' hd.ne', abs_div, abs_of_pos (mul_pos c3 hd), div_le_iff₀ (mul_pos c3 hd)]
  have e : a * d - c * b = (a - b) * d + b * (d - c) := by ring
  have h1 : |a * d - c * b| ≤ (k + l) * u * (b * d) := by
    rw [e]
    refine (abs_add_le _ _).trans ?_
    rw [abs_mul, abs_mul, abs_of_pos hd, abs_of_pos hb, abs_sub_comm d c]
    have := mul_le_mul_of_nonneg_right h hd.le
    have := mul_le_mul_of_nonneg_left h' hb.le
    linarith
  refine h1.trans ?_
  have e2 : (k + l + 1) * u * (b / d) * (c * d) = (k + l + 1) * u * (b * c) := by field_simp
  rw [e2]
  have hkl : (k + l) * (1 / 10 ^ 12) ≤ 1 / 2 := by norm_num; linarith
  have h2 : (k + l) * d ≤ (k + l + 1) * c := by
    have : (k + l + 1) * ((1 - 1 / 10 ^ 12) * d) ≤ (k + l + 1) * c := by gcongr
    refine le_trans ?_ this
    rw [← mul_assoc]
    apply mul_le_mul_of_nonneg_right _ hd.le
    norm_num at hkl ⊢
    linarith
  calc (k + l) * u * (b * d) = ((k + l) * d) * (u * b) := by ring
    _ ≤ ((k + l + 1) * c) * (u * b) := by gcongr
    _ = _ := by ring

end F64

namespace MadaBoostF

open F64 Miniboosts.MadaBoost

/-- The numbers behind the parameters of a round with the edge `e`. -/
theorem params_fin {e : ℝ} (he : Rep e) (h1 : e < 1) (h2 : -(1 - 1 / 10 ^ 6) ≤ e) :
    (∃ x, eps (fin e) = fin x ∧ 0 ≤ x ∧ x < 1) ∧ ∃ b, beta (fin e) = fin b ∧ Rel 40 b (betaOf e) ∧ Rep b ∧ 1 / 10 ^ 5 ≤ betaOf e ∧ betaOf e ≤ 157 / 100 := by
  have hu := u_small
  have hu0 := u_pos
  norm_num at h2
  -- `1 - e` is not tiny
  have hu' : u ≤ 1 - e := by
    by_cases hc : e ≤ 1 / 2
    · linarith
    · push Not at hc
      obtain ⟨k, j, hk, hj, rfl⟩ := he
      have hj0 : j < 0 := by
        by_contra hj0
        push Not at hj0
        have hp : (1 : ℝ) ≤ 2 ^ j := one_le_zpow₀ (by norm_num) hj0
        have hk0 : 0 < (k : ℝ) := by
          by_contra hk0
          push Not at hk0
          have : (k : ℝ) * 2 ^ j ≤ 0 := mul_nonpos_of_nonpos_of_nonneg hk0 (by linarith)
          linarith
        have hk1 : (1 : ℝ) ≤ k := by exact_mod_cast (show (0 : ℤ) < k by exact_mod_cast hk0)
        nlinarith
      have hjl : -53 ≤ j := by
        by_contra hjl
        push Not at hjl
        have hp : (2 : ℝ) ^ j ≤ 2 ^ (-54 : ℤ) := zpow_le_zpow_right₀ (by norm_num) (by omega)
        have hk1 : (k : ℝ) ≤ 2 ^ 53 := by
          have := (abs_lt.mp hk).2
          exact_mod_cast this.le
        have h2j : (0 : ℝ) < 2 ^ j := by positivity
        have : (k : ℝ) * 2 ^ j ≤ 2 ^ 53 * 2 ^ (-54 : ℤ) := by gcongr
        norm_num at this
        linarith
      obtain ⟨n, hn⟩ := Int.eq_ofNat_of_zero_le (show 0 ≤ j + 53 by omega)
      have hju : (2 : ℝ) ^ j = 2 ^ n * u := by
        unfold u
        rw [← zpow_natCast, ← zpow_add₀ (by norm_num)]
        congr 1; omega
      have hone : (1 : ℝ) = (2 ^ 53 : ℤ) * u := by rw [u_eq]; norm_num
      have hm : (1 : ℝ) - (k : ℝ) * 2 ^ j = ((2 ^ 53 - k * 2 ^ n : ℤ) : ℝ) * u := by
        rw [hju]
        push_cast
        push_cast at hone
        linear_combination hone
      rw [hm]
      have hpos : (0 : ℝ) < ((2 ^ 53 - k * 2 ^ n : ℤ) : ℝ) := by
        by_contra hc'
        push Not at hc'
        have : ((2 ^ 53 - k * 2 ^ n : ℤ) : ℝ) * u ≤ 0 := mul_nonpos_of_nonpos_of_nonneg hc' hu0.le
        linarith
      have h1' : (1 : ℝ) ≤ ((2 ^ 53 - k * 2 ^ n : ℤ) : ℝ) := by
        have : (0 : ℤ) < 2 ^ 53 - k * 2 ^ n := by exact_mod_cast hpos
        exact_mod_cast this
      nlinarith
  have hug := u_ge
  have t1 : Rel 2 (F64.round (1 - e)) (1 - e) := by
    have := (Rel.refl (show 0 < 1 - e by linarith)).round (by norm_num) (by norm_num at hug ⊢; linarith)
    simpa using this
  have t2 : Rel 4 (F64.round (1 / 2 * F64.round (1 - e))) (1 / 2 * (1 - e)) := by
    have := t1.half.round (by norm_num) (by norm_num at hug ⊢; linarith)
    norm_num at this ⊢; exact this
  have s1 : sub (fin 1) (fin e) = fin (F64.round (1 - e)) := by
    show rnd (1 + -e) = _
    rw [← sub_eq_add_neg]
    exact rnd_small (abs_le.mpr ⟨by norm_num; linarith, by norm_num; linarith⟩)
  obtain ⟨b11, b12, b13⟩ := t1.bounds (by norm_num)
  norm_num at b12
  have s2 : eps (fin e) = fin (F64.round (1 / 2 * F64.round (1 - e))) := by
    unfold eps
    rw [s1]
    exact rnd_small (abs_le.mpr ⟨by norm_num; linarith, by norm_num; linarith⟩)
  obtain ⟨b21, b22, b23⟩ := t2.bounds (by norm_num)
  norm_num at b22
  refine ⟨⟨_, s2, b23.le, by norm_num; linarith⟩, ?_⟩
  set x := F64.round (1 / 2 * F64.round (1 - e)) with hx
  have t3 : Rel 6 (F64.round (1 / 2 * x)) (1 / 2 * (1 / 2 * (1 - e))) := by
    have := t2.half.round (by norm_num) (by norm_num at hug ⊢; linarith)
    norm_num at this ⊢; exact this
  obtain ⟨b31, b32, b33⟩ := t3.bounds (by norm_num)
  norm_num at b32
  have s3 : mul (fin (1 / 2)) (fin x) = fin (F64.round (1 / 2 * x)) := rnd_small (abs_le.mpr ⟨by norm_num; linarith, by norm_num; linarith⟩)
  have hE0 : 1 / 10 ^ 9 ≤ √(1 / 2 * (1 / 2 * (1 - e))) := by
    apply Real.le_sqrt_of_sq_le
    norm_num at hug ⊢
    linarith
  have hE1 : √(1 / 2 * (1 / 2 * (1 - e))) ≤ 708 / 1000 := by
    rw [Real.sqrt_le_left (by norm_num)]
    norm_num
    linarith
  have t4 : Rel 8 (F64.round (√(F64.round (1 / 2 * x)))) (√(1 / 2 * (1 / 2 * (1 - e)))) := by
    have := (t3.sqrt (by norm_num)).round (by norm_num) (by norm_num at hE0 ⊢; linarith)
    norm_num at this ⊢; exact this
  obtain ⟨b41, b42, b43⟩ := t4.bounds (by norm_num)
  have hsq : √(F64.round (1 / 2 * x)) ≤ 1 := by
    rw [Real.sqrt_le_left (by norm_num)]; norm_num; linarith
  have s4 : eps2 (fin e) = fin (F64.round (√(F64.round (1 / 2 * x)))) := by
    unfold eps2
    rw [s2, s3]
    refine (if_pos b33.le).trans ?_
    exact rnd_small (abs_le.mpr ⟨by have := Real.sqrt_nonneg (F64.round (1 / 2 * x)); linarith, by linarith⟩)
  set E := √(1 / 2 * (1 / 2 * (1 - e))) with hE
  set y := F64.round (√(F64.round (1 / 2 * x))) with hy
  have t5 : Rel 22 (F64.round (1 - y)) (1 - E) := by
    have := (t4.oneSub (by norm_num) (by linarith)).round (by norm_num) (by norm_num; linarith)
    norm_num at this ⊢; exact this
  obtain ⟨b51, b52, b53⟩ := t5.bounds (by norm_num)
  norm_num at b42 b51 b52
  have s5 : sub (fin 1) (fin y) = fin (F64.round (1 - y)) := by
    show rnd (1 + -y) = _
    rw [← sub_eq_add_neg]
    exact rnd_small (abs_le.mpr ⟨by linarith, by linarith⟩)
  have hQ0 : 1 / 10 ^ 9 ≤ E / (1 - E) := by
    rw [le_div_iff₀ (by linarith)]
    norm_num at hE0 ⊢
    linarith
  have hQ1 : E / (1 - E) ≤ 2426 / 1000 := by
    rw [div_le_iff₀ (by linarith)]
    linarith
  have t6 : Rel 34 (F64.round (y / F64.round (1 - y))) (E / (1 - E)) := by
    have := ((t4.div t5 (by norm_num) (by norm_num) (by norm_num) (by norm_num)).round (by norm_num) (by norm_num at hQ0 ⊢; linarith)).mono
      (l := 34) (by norm_num)
    exact this
  obtain ⟨b61, b62, b63⟩ := t6.bounds (by norm_num)
  have hdiv := (t4.div t5 (by norm_num) (by norm_num) (by norm_num) (by norm_num)).bounds (by norm_num)
  have s6 : div (fin y) (fin (F64.round (1 - y))) = fin (F64.round (y / F64.round (1 - y))) := by
    refine (if_neg b53.ne').trans (rnd_small (abs_le.mpr ⟨?_, ?_⟩))
    · have := hdiv.2.2; linarith
    · have := hdiv.2.1; norm_num at this ⊢; linarith
  have t7 : Rel 40 (F64.round (√(F64.round (y / F64.round (1 - y))))) (betaOf e) := by
    have hb : 1 / 10 ^ 30 ≤ √(E / (1 - E)) := by
      apply Real.le_sqrt_of_sq_le
      norm_num at hQ0 ⊢
      linarith
    exact ((t6.sqrt (by norm_num)).round (by norm_num) hb).mono (by norm_num)
  norm_num at b62
  have s7 : beta (fin e) = fin (F64.round (√(F64.round (y / F64.round (1 - y))))) := by
    unfold beta
    rw [s4, s5, s6]
    refine (if_pos b63.le).trans ?_
    have : √(F64.round (y / F64.round (1 - y))) ≤ 2 := by
      rw [Real.sqrt_le_left (by norm_num)]; norm_num; linarith
    exact rnd_small (abs_le.mpr ⟨by have := Real.sqrt_nonneg (F64.round (y / F64.round (1 - y))); linarith, by linarith⟩)
  refine ⟨_, s7, t7, rep_round _, ?_, ?_⟩
  · show 1 / 10 ^ 5 ≤ √(E / (1 - E))
    apply Real.le_sqrt_of_sq_le
    refine le_trans ?_ hQ0
    norm_num
  · show √(E / (1 - E)) ≤ 157 / 100
    rw [Real.sqrt_le_left (by norm_num)]
    refine hQ1.trans ?_
    norm_num

end MadaBoostF

end Miniboosts
