import Verif.Lemmas.FloatCERLPCap
import Verif.Props.FloatProject

/-! # CERLPBoost in `f64` with a cap: the parameters and the rounds of a run that returns -/

namespace Miniboosts

namespace CERLPBoostF

open F64

variable {H X : Type*}

set_option maxHeartbeats 800000 in
/-- The regularisation parameter and the limit of the iterations, with a cap. -/
theorem setup_cap (L : Libm) {S : Examples X ℝ} (hS : GoodSample S) {s : CERLPBoostF H} {h ν : ℝ} (hp : CappedParams S s h ν) :
    ∃ (η : ℝ) (M : ℕ), preprocess L S s = .ok { s with dist := List.replicate S.length (div (fin 1) (rnd (S.length : ℝ))), eta := fin η, maxIter := M, terminated := M, weights := [], hypotheses := [] } ∧
      1 / 100 ≤ η ∧ η ≤ 9000 ∧ Real.log (S.length / ν) / η ≤ h + 1 / 10 ^ 8 ∧ M ≤ 25 * 10 ^ 6 ∧ 8 * Real.log (S.length / ν) / h ^ 2 - 1 / 1000 ≤ M ∧ (M : ℝ) ≤ 8 * Real.log (S.length / ν) / h ^ 2 + 1001 / 1000 := by
  have hu := u_small
  have hu0 := u_pos
  have hη := eta_tiny
  have hη0 := eta_pos
  have hlo := hp.lo
  have hhi := hp.hi
  have h0 : 0 < h := by linarith
  have hn : (S.length : ℝ) ≤ 10 ^ 5 := by exact_mod_cast hS.few
  have hn2 : (2 : ℝ) ≤ S.length := by exact_mod_cast hS.two
  set N := (S.length : ℝ) with hN
  have hN0 : 0 < N := by linarith
  have hν1 := hp.one_le
  have hν0 : 0 < ν := by linarith
  have hνle : ν ≤ 99 / 100 * N := hp.le
  set R := N / ν with hR
  have hR1 : 100 / 99 ≤ R := by rw [hR, le_div_iff₀ hν0]; linarith
  have hRN : R ≤ 10 ^ 5 := by
    rw [hR, div_le_iff₀ hν0]
    nlinarith
  have hR0 : 0 < R := by linarith
  have hlog2 : 1 / 100 ≤ Real.log R := by
    have h1 := Real.one_sub_inv_le_log_of_pos hR0
    have h2 : R⁻¹ ≤ (100 / 99)⁻¹ := inv_anti₀ (by norm_num) hR1
    have h3 : ((100 : ℝ) / 99)⁻¹ = 99 / 100 := by norm_num
    linarith
  have hlog12 : Real.log R ≤ 12 := by
    rw [Real.log_le_iff_le_exp hR0]
    refine hRN.trans ?_
    have h1 : Real.exp 12 = Real.exp 1 ^ 12 := by rw [← Real.exp_nat_mul]; norm_num
    rw [h1]
    have h2 : (27 / 10 : ℝ) ≤ Real.exp 1 := by have := Real.exp_one_gt_d9; linarith
    calc (10 : ℝ) ^ 5 ≤ (27 / 10) ^ 12 := by norm_num
      _ ≤ _ := by gcongr
  have hrn : rnd N = fin N := F64.rnd_nat_long (i := S.length) (by have := hS.few; omega)
  set r := F64.round R with hr
  have hdiv : div (rnd N) s.nu = fin r := by
    rw [hrn, hp.nu]
    simp only [div, if_neg hν0.ne']
    exact rnd_small (by rw [abs_of_pos hR0]; linarith)
  have hrR : |r - R| ≤ 1 / 10 ^ 15 * R := by
    refine (round_err R).trans ?_
    rw [abs_of_pos hR0]
    calc u * R + F64.eta ≤ 1 / 9000000000000000 * R + 1 / 10 ^ 60 * R := by
          have : F64.eta ≤ 1 / 10 ^ 60 * R := by nlinarith
          have : u * R ≤ 1 / 9000000000000000 * R := by gcongr
          linarith
      _ ≤ _ := by nlinarith
  have hrR' := abs_le.mp hrR
  have hr1 : 1005 / 1000 ≤ r := by nlinarith [hrR'.1]
  have hr0 : 0 < r := by linarith
  have hlr : |Real.log r - Real.log R| ≤ 2 / 10 ^ 15 := by
    have e1 := Real.log_le_sub_one_of_pos (div_pos hr0 hR0)
    have e2 := Real.log_le_sub_one_of_pos (div_pos hR0 hr0)
    rw [Real.log_div hr0.ne' hR0.ne'] at e1
    rw [Real.log_div hR0.ne' hr0.ne'] at e2
    have e3 : r / R ≤ 1 + 2 / 10 ^ 15 := by rw [div_le_iff₀ hR0]; nlinarith [hrR'.2]
    have e4 : R / r ≤ 1 + 2 / 10 ^ 15 := by rw [div_le_iff₀ hr0]; nlinarith [hrR'.1]
    rw [abs_le]; constructor <;> linarith
  have hlr' := abs_le.mp hlr
  obtain ⟨y, y1, y2⟩ := ln_fin L hr0 (by rw [abs_of_pos (by linarith)]; linarith)
  rw [abs_of_pos (by linarith : 0 < Real.log r)] at y2
  have hyr : |y - Real.log r| ≤ 2 / 10 ^ 14 := by
    refine y2.trans ?_
    calc 10 * u * Real.log r + F64.eta ≤ 10 * (1 / 9000000000000000) * 13 + 1 / 10 ^ 60 := by gcongr <;> linarith
      _ ≤ _ := by norm_num
  have hyr' := abs_le.mp hyr
  have hy : |y - Real.log R| ≤ 25 / 10 ^ 15 := by rw [abs_le]; constructor <;> linarith
  have hy' := abs_le.mp hy
  have hy0 : 0 < y := by linarith
  -- the regularisation parameter
  have hyh : |y / h - Real.log R / h| ≤ 2 / 10 ^ 11 := by
    rw [← sub_div, abs_div, abs_of_pos h0, div_le_iff₀ h0]
    refine hy.trans ?_
    nlinarith
  have hlh : Real.log R / h ≤ 6000 := by rw [div_le_iff₀ h0]; linarith
  have hlh' : 2 / 100 ≤ Real.log R / h := by rw [le_div_iff₀ h0]; linarith
  have hyh' := abs_le.mp hyh
  have hyhb : |y / h| ≤ 6001 := by rw [abs_of_pos (div_pos hy0 h0)]; linarith
  have hr1 := round_err (y / h)
  have hr1' : |F64.round (y / h) - y / h| ≤ 1 / 10 ^ 11 := by
    refine hr1.trans ?_
    calc u * |y / h| + F64.eta ≤ (1 / 9000000000000000) * 6001 + 1 / 10 ^ 60 := by gcongr
      _ ≤ _ := by norm_num
  have hr1a := abs_le.mp hr1'
  have heta : div (fin y) (fin h) = fin (F64.round (y / h)) := by
    simp only [div, if_neg h0.ne']
    rw [rnd_small (hyhb.trans (by norm_num))]
  set η := F64.round (y / h) with hηd
  have hη1 : 1 / 100 ≤ η := by linarith
  -- the limit
  have hN8 : |(8 : ℝ) * y| ≤ 100 := by rw [abs_of_pos (by linarith)]; linarith
  have hm1 : mul (fin 8) (fin y) = fin (F64.round (8 * y)) := rnd_small (hN8.trans (by norm_num))
  have hhh : |h * h| ≤ 1 := by rw [abs_of_pos (by positivity)]; nlinarith
  have hm2 : mul (fin h) (fin h) = fin (F64.round (h * h)) := rnd_small (hhh.trans (by norm_num))
  have hb1 : |F64.round (8 * y) - 8 * Real.log R| ≤ 1 / 10 ^ 12 := by
    have h1 := round_err (8 * y)
    have h2 : u * |8 * y| + F64.eta ≤ (1 / 9000000000000000) * 100 + 1 / 10 ^ 60 := by gcongr
    have h3 := abs_le.mp (h1.trans h2)
    rw [abs_le]
    constructor <;> linarith
  have hsq : 4 / 10 ^ 6 ≤ h * h := by nlinarith
  have hb2 : |F64.round (h * h) - h * h| ≤ 2 * u * (h * h) := by
    refine (round_err _).trans ?_
    rw [abs_of_pos (by positivity)]
    have : F64.eta ≤ u * (h * h) := by
      have h3 : (1 : ℝ) / 10 ^ 17 ≤ u := by rw [u_eq]; norm_num
      calc F64.eta ≤ 1 / 10 ^ 60 := hη
        _ ≤ 1 / 10 ^ 17 * (4 / 10 ^ 6) := by norm_num
        _ ≤ _ := by gcongr
    linarith
  set n8 := F64.round (8 * y) with hn8
  set D := F64.round (h * h) with hD
  have hb1' := abs_le.mp hb1
  have hb2' := abs_le.mp hb2
  have hDlo : 3 / 10 ^ 6 ≤ D := by
    have : 2 * u * (h * h) ≤ 1 / 10 ^ 10 * (h * h) := by
      refine mul_le_mul_of_nonneg_right ?_ (by positivity)
      norm_num; linarith
    nlinarith [hb2'.1]
  have hD0 : 0 < D := by linarith
  have hn8p : 0 < n8 := by linarith
  have hQ : |n8 / D - 8 * Real.log R / h ^ 2| ≤ 2 / 10 ^ 6 := ratio_near hn8p (by linarith) hsq hDlo hb1 (hb2.trans (by
    refine mul_le_mul_of_nonneg_right ?_ (by positivity)
    linarith))
  have hQ' := abs_le.mp hQ
  have hlim : 8 * Real.log R / h ^ 2 ≤ 24 * 10 ^ 6 := by
    rw [div_le_iff₀ (by positivity)]
    nlinarith
  have hQb : |n8 / D| ≤ 25 * 10 ^ 6 := by rw [abs_of_pos (div_pos hn8p hD0)]; linarith
  have hr2 : |F64.round (n8 / D) - n8 / D| ≤ 1 / 10 ^ 6 := by
    refine (round_err _).trans ?_
    calc u * |n8 / D| + F64.eta ≤ (1 / 9000000000000000) * (25 * 10 ^ 6) + 1 / 10 ^ 60 := by gcongr
      _ ≤ _ := by norm_num
  have hr2' := abs_le.mp hr2
  have hm3 : div (fin n8) (fin D) = fin (F64.round (n8 / D)) := by
    simp only [div, if_neg hD0.ne']
    rw [rnd_small (hQb.trans (by norm_num))]
  set x := F64.round (n8 / D) with hx
  have hxb : x ≤ 245 * 10 ^ 5 := by linarith
  have hceil : ⌈x⌉₊ ≤ 25 * 10 ^ 6 := by
    refine Nat.ceil_le.mpr ?_
    push_cast
    linarith
  refine ⟨η, ⌈x⌉₊, ?_, hη1, by linarith, ?_, hceil, ?_, ?_⟩
  · unfold preprocess
    rw [hS.valid]
    simp only [regularizationParam, maxLoop, List.length_replicate]
    rw [← hN, hdiv, y1, hp.tol, hm1, hm2, hm3, heta]
    have : ceilUsize (fin x) = ⌈x⌉₊ := by
      simp only [ceilUsize]
      exact min_eq_left (by omega)
    rw [this]
  · rw [div_le_iff₀ (by linarith)]
    have h3 : Real.log R = h * (Real.log R / h) := by field_simp
    have h4 : Real.log R / h ≤ η + 3 / 10 ^ 11 := by linarith
    have h5 : h * (Real.log R / h) ≤ h * (η + 3 / 10 ^ 11) := mul_le_mul_of_nonneg_left h4 h0.le
    nlinarith
  · have := Nat.le_ceil x
    linarith
  · have := Nat.ceil_lt_add_one (a := x) (by
      have : 0 ≤ n8 / D := (div_pos hn8p hD0).le
      exact round_nonneg this)
    linarith


end CERLPBoostF

end Miniboosts
