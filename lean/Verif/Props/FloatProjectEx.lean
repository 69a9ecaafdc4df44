import Verif.Props.FloatProject
import Verif.Props.FloatTree
import Mathlib.Analysis.Complex.ExponentialBounds

/-! # C96: inputs on which the projection panics, and inputs on which it returns -/

namespace Miniboosts.Props

open Miniboosts F64

open Finset in
theorem log_two_near_18 : |Real.log 2 - 693147180559945309417 / 10 ^ 21| ≤ 2 / 10 ^ 18 := by
  suffices |Real.log 2 - 693147180559945309417 / 10 ^ 21| ≤ 1 / 2 ^ 60 + (2 / 10 ^ 18 - 1 / 2 ^ 60) by
    norm_num1 at *
    assumption
  have t : |(2⁻¹ : ℝ)| = 2⁻¹ := by rw [abs_of_pos]; norm_num
  have z := Real.abs_log_sub_add_sum_range_le (show |(2⁻¹ : ℝ)| < 1 by rw [t]; norm_num) 60
  rw [t] at z
  norm_num1 at z
  rw [one_div (2 : ℝ), Real.log_inv, ← sub_eq_add_neg, _root_.abs_sub_comm] at z
  have z' : _ ≤ (1 : ℝ) / 2 ^ 60 := z.trans (by norm_num)
  apply le_trans (_root_.abs_sub_le _ _ _) (add_le_add z' _)
  norm_num [sum_range_succ]

/-- `8f64.ln()`. -/
noncomputable def ln8 : ℝ := ((4682486076124019 : ℤ) : ℝ) * 2 ^ (-51 : ℤ)

theorem ln8_bounds : 17 / 10 ^ 17 ≤ 3 * Real.log 2 - ln8 ∧ 3 * Real.log 2 - ln8 ≤ 19 / 10 ^ 17 := by
  have h := abs_le.mp log_two_near_18
  unfold ln8
  constructor
  · have := h.1; norm_num at this ⊢; linarith
  · have := h.2; norm_num at this ⊢; linarith

theorem ln8_rep : F64.Rep ln8 := ⟨4682486076124019, -51, by norm_num, by norm_num, rfl⟩

theorem neg_rep {x : ℝ} (h : F64.Rep x) : F64.Rep (-x) := by
  obtain ⟨k, j, hk, hj, rfl⟩ := h
  exact ⟨-k, j, by rwa [abs_neg], hj, by push_cast; ring⟩

theorem ln8_abs : |ln8| ≤ 3 := by
  unfold ln8
  rw [abs_of_pos (by positivity)]
  norm_num

theorem ln_eight : F64.ln exLibm (fin 8) = fin ln8 := by
  have h := ln8_bounds
  have hl : Real.log 8 = 3 * Real.log 2 := by rw [show (8 : ℝ) = 2 ^ 3 by norm_num, Real.log_pow]; norm_num
  have hlog := abs_le.mp log_two_near_18
  have hpos : 0 < 3 * Real.log 2 := by have := Real.log_two_gt_d9; linarith
  simp only [F64.ln]
  rw [if_pos (by norm_num), show exLibm.lnA 8 = 3 * Real.log 2 from hl]
  have hl9 := Real.log_two_lt_d9
  have hg9 := Real.log_two_gt_d9
  rw [rnd_small (by rw [abs_of_pos hpos]; linarith)]
  congr 1
  refine round_lit (e := -51) (k := 4682486076124019) (by norm_num) ?_ ?_ ?_
  · rw [abs_of_pos hpos]; norm_num; linarith
  · rw [abs_of_pos hpos]; norm_num; linarith
  · have : 3 * Real.log 2 / 2 ^ (-51 : ℤ) - ((4682486076124019 : ℤ) : ℝ) = (3 * Real.log 2 - ln8) * 2 ^ 51 := by
      unfold ln8; norm_num; ring
    rw [this, abs_of_pos (by have := h.1; norm_num at this ⊢; linarith)]
    have := h.2
    norm_num at this ⊢
    linarith

theorem ln_eighth : F64.ln exLibm (fin (1 / 8)) = fin (-ln8) := by
  have h := ln8_bounds
  have hl : Real.log (1 / 8) = -(3 * Real.log 2) := by
    rw [one_div, Real.log_inv, show (8 : ℝ) = 2 ^ 3 by norm_num, Real.log_pow]; norm_num
  have hl9 := Real.log_two_lt_d9
  have hg9 := Real.log_two_gt_d9
  have hpos : -(3 * Real.log 2) < 0 := by linarith
  simp only [F64.ln]
  rw [if_pos (by norm_num), show exLibm.lnA (1 / 8) = -(3 * Real.log 2) from hl]
  rw [rnd_small (by rw [abs_of_neg hpos]; linarith)]
  congr 1
  have : -ln8 = ((-4682486076124019 : ℤ) : ℝ) * 2 ^ (-51 : ℤ) := by unfold ln8; push_cast; ring
  rw [this]
  refine round_lit (e := -51) (k := -4682486076124019) (by norm_num) ?_ ?_ ?_
  · rw [abs_of_neg hpos]; norm_num; linarith
  · rw [abs_of_neg hpos]; norm_num; linarith
  · have : -(3 * Real.log 2) / 2 ^ (-51 : ℤ) - ((-4682486076124019 : ℤ) : ℝ) = -((3 * Real.log 2 - ln8) * 2 ^ 51) := by
      unfold ln8; norm_num; ring
    rw [this, abs_neg, abs_of_pos (by have := h.1; norm_num at this ⊢; linarith)]
    have := h.2
    norm_num at this ⊢
    linarith

/-- `(-(8f64.ln())).exp()` is above `0.125`. -/
theorem exp_above : ∃ z, F64.exp exLibm (fin (-ln8)) = fin z ∧ 1 / 8 < z := by
  have h := ln8_bounds
  have hz : 1 / 8 * (1 + 17 / 10 ^ 17) ≤ Real.exp (-ln8) := by
    have e : Real.exp (-ln8) = 1 / 8 * Real.exp (3 * Real.log 2 - ln8) := by
      have : (1 / 8 : ℝ) = Real.exp (-(3 * Real.log 2)) := by
        rw [Real.exp_neg, mul_comm, Real.exp_mul, Real.exp_log two_pos]; norm_num
      rw [this, ← Real.exp_add]; congr 1; ring
    rw [e]
    have := Real.add_one_le_exp (3 * Real.log 2 - ln8)
    linarith [h.1]
  have hle : Real.exp (-ln8) ≤ 1 := Real.exp_le_one_iff.mpr (by unfold ln8; norm_num)
  refine ⟨F64.round (Real.exp (-ln8)), rnd_small (show |Real.exp (-ln8)| ≤ 10 ^ 20 by rw [abs_of_pos (Real.exp_pos _)]; linarith), ?_⟩
  set z := Real.exp (-ln8)
  by_cases hc : ((4503599627370497 : ℤ) : ℝ) * 2 ^ (-55 : ℤ) ≤ z
  · have := rep_le_round ⟨4503599627370497, -55, by norm_num, by norm_num, rfl⟩ hc
    refine lt_of_lt_of_le ?_ this
    norm_num
  · have hc := not_le.mp hc
    have hz0 : 0 < z := Real.exp_pos _
    rw [round_lit (x := z) (e := -55) (k := 4503599627370497) (by norm_num) (by rw [abs_of_pos hz0]; norm_num at hz ⊢; linarith)
      (by rw [abs_of_pos hz0]; norm_num at hc ⊢; linarith) ?_]
    · norm_num
    · have e : z / 2 ^ (-55 : ℤ) - ((4503599627370497 : ℤ) : ℝ) = z * 2 ^ 55 - 4503599627370497 := by norm_num; ring
      rw [e, abs_lt]
      norm_num at hc hz ⊢
      constructor <;> linarith

/-- Nine margins. -/
noncomputable def exMargins9 : List ℝ := [-7 / 8, -6 / 8, -5 / 8, -4 / 8, -3 / 8, -2 / 8, -1 / 8, 0, 1 / 8]

/-- The logarithms for `η = 800`. -/
noncomputable def exLogs9 : List ℝ := [700, 600, 500, 400, 300, 200, 100, 0, -100]

theorem exLogs9_eq : (exMargins9.map fin).map (fun yf => F64.mul (F64.neg (fin 800)) yf) = exLogs9.map fin := by
  have key : ∀ (m : ℝ) (l : ℤ), -800 * m = l → |l| ≤ 1000 → F64.mul (F64.neg (fin 800)) (fin m) = fin (l : ℝ) := by
    intro m l h hl
    show rnd (-800 * m) = _
    rw [h]
    have hl' : |(l : ℝ)| ≤ 1000 := by rw [← Int.cast_abs]; exact_mod_cast hl
    exact rnd_double (double_int (lt_of_le_of_lt hl (by norm_num))) (hl'.trans (by norm_num))
  simp only [exMargins9, exLogs9, List.map_cons, List.map_nil]
  rw [key (-7 / 8) 700 (by norm_num) (by norm_num), key (-6 / 8) 600 (by norm_num) (by norm_num), key (-5 / 8) 500 (by norm_num) (by norm_num),
    key (-4 / 8) 400 (by norm_num) (by norm_num), key (-3 / 8) 300 (by norm_num) (by norm_num), key (-2 / 8) 200 (by norm_num) (by norm_num),
    key (-1 / 8) 100 (by norm_num) (by norm_num), key 0 0 (by norm_num) (by norm_num), key (1 / 8) (-100) (by norm_num) (by norm_num)]
  norm_num

theorem lg_ex {k : Nat} (h : k < 9) : lg exLogs9 k = 700 - 100 * k := by
  interval_cases k <;> simp [lg, exLogs9] <;> norm_num

theorem exp_hundred : Real.exp (-100) ≤ 1 / 10 ^ 40 := by
  have h := Real.exp_one_gt_d9
  have e : Real.exp (-100) = (Real.exp 1 ^ 100)⁻¹ := by rw [← Real.exp_nat_mul, Real.exp_neg]; norm_num
  rw [e, one_div]
  apply inv_anti₀ (by norm_num)
  calc (10 : ℝ) ^ 40 ≤ 2.7182818283 ^ 100 := by norm_num
    _ ≤ _ := by gcongr

theorem sumHead_78 : sumHead exLibm (fun k => fin (lg exLogs9 k)) [7, 8] = fin 0 := by
  have h7 : lg exLogs9 7 = 0 := by rw [lg_ex (by norm_num)]; norm_num
  have h8 : lg exLogs9 8 = -100 := by rw [lg_ex (by norm_num)]; norm_num
  have hs : sumHead exLibm (fun k => fin (lg exLogs9 k)) [7, 8] =
      F64.add (maxNum (fin (-100)) (fin 0)) (F64.ln exLibm (F64.add (fin 1) (F64.exp exLibm (F64.sub (minNum (fin (-100)) (fin 0)) (maxNum (fin (-100)) (fin 0)))))) := by
    simp only [sumHead, List.map_cons, List.map_nil, F64.suffixLogSums, List.head?_nil, List.head?_cons, List.headD_cons, h7, h8]
  rw [hs, maxNum_fin, minNum_fin, max_eq_right (by norm_num), min_eq_left (by norm_num)]
  have h1 : F64.sub (fin (-100)) (fin 0) = fin (-100) := by
    show rnd (-100 + -0) = _
    rw [neg_zero, add_zero]
    exact rnd_double (by simpa using double_int (k := -100) (by norm_num)) (by norm_num)
  have he := exp_hundred
  have he0 := Real.exp_pos (-100)
  have h2 : F64.exp exLibm (fin (-100)) = fin (F64.round (Real.exp (-100))) :=
    rnd_small (show |Real.exp (-100)| ≤ 10 ^ 20 by rw [abs_of_pos he0]; linarith)
  have hE0 : 0 ≤ F64.round (Real.exp (-100)) := round_nonneg he0.le
  have hE1 : F64.round (Real.exp (-100)) ≤ 1 / 10 ^ 30 := by
    have h3 := (abs_le.mp (round_err (Real.exp (-100)))).2
    rw [abs_of_pos he0] at h3
    have h4 := u_small
    have h5 := u_pos
    have h6 := eta_tiny
    have h7 : u * Real.exp (-100) ≤ 1 * Real.exp (-100) := mul_le_mul_of_nonneg_right (by linarith) he0.le
    norm_num at h6 he h3 h7 ⊢
    linarith
  rw [h1, h2]
  set E := F64.round (Real.exp (-100))
  have h3 : F64.add (fin 1) (fin E) = fin 1 := by
    show rnd (1 + E) = _
    rw [rnd_small (by rw [abs_of_pos (by linarith)]; linarith)]
    rw [round_lit (x := 1 + E) (e := -52) (k := 4503599627370496) (by norm_num) (by rw [abs_of_pos (by linarith)]; norm_num; linarith)
      (by rw [abs_of_pos (by linarith)]; norm_num; linarith) ?_]
    · norm_num
    · have e : (1 + E) / 2 ^ (-52 : ℤ) - ((4503599627370496 : ℤ) : ℝ) = E * 4503599627370496 := by norm_num; ring
      rw [e, abs_of_nonneg (by positivity)]
      norm_num at hE1 ⊢
      linarith
  have h4 : F64.ln exLibm (fin 1) = fin 0 := by
    simp only [F64.ln]
    rw [if_pos one_pos, show exLibm.lnA 1 = 0 from Real.log_one, rnd_small (by norm_num), round_zero]
  rw [h3, h4]
  show rnd (0 + 0) = _
  rw [add_zero, rnd_small (by norm_num), round_zero]

theorem xi_7 : logXi exLibm (F64.div (fin 1) (fin 8)) 7 (fin 0) = fin (-ln8) := by
  have h1 : F64.div (fin 1) (fin 8) = fin (1 / 8) := by
    simp only [F64.div]
    rw [if_neg (by norm_num)]
    exact rnd_double ⟨1, -3, by norm_num, by norm_num, by norm_num⟩ (by norm_num)
  have h2 : F64.mul (fin (1 / 8)) (rnd ((7 : ℕ) : ℝ)) = fin (7 / 8) := by
    rw [rnd_nat (by norm_num)]
    show rnd (1 / 8 * ((7 : ℕ) : ℝ)) = _
    have : (1 / 8 : ℝ) * ((7 : ℕ) : ℝ) = 7 / 8 := by norm_num
    rw [this]
    exact rnd_double ⟨7, -3, by norm_num, by norm_num, by norm_num⟩ (by norm_num)
  have h3 : F64.sub (fin 1) (fin (7 / 8)) = fin (1 / 8) := by
    show rnd (1 + -(7 / 8)) = _
    have : (1 : ℝ) + -(7 / 8) = 1 / 8 := by norm_num
    rw [this]
    exact rnd_double ⟨1, -3, by norm_num, by norm_num, by norm_num⟩ (by norm_num)
  rw [logXi, h1, h2, h3, ln_eighth]
  show rnd (-ln8 + -0) = _
  rw [neg_zero, add_zero, rnd_small (by rw [abs_neg]; linarith [ln8_abs]), round_of_rep (neg_rep ln8_rep)]

theorem add_zero_ln8 : F64.add (fin (-ln8)) (fin 0) = fin (-ln8) := by
  show rnd (-ln8 + 0) = _
  rw [add_zero, rnd_small (by rw [abs_neg]; linarith [ln8_abs]), round_of_rep (neg_rep ln8_rep)]

theorem stops_7 : Stops exLibm (F64.div (fin 1) (fin 8)) (F64.ln exLibm (fin 8)) 7 (fin 0) (fin 0) := by
  unfold Stops
  rw [xi_7, ln_eight, add_zero_ln8]
  have : F64.add (fin (-ln8)) (fin ln8) = fin 0 := by
    show rnd (-ln8 + ln8) = _
    rw [neg_add_cancel, rnd_small (by norm_num), round_zero]
  rw [this]
  exact le_refl (0 : ℝ)

/-- C96, the negation: a panic on ordinary input.  Nine examples with margins `-7/8, -6/8, …, 1/8`, the inverse temperature `η = 800` and the
cap `ν = 8`, with the most exact `exp` and `ln` there can be: the eighth largest weight is computed as `(-(8f64.ln())).exp()`, which is above
`1 / 8`, and the assertion "capping constraint is violated!" fails. -/
theorem project_f64_can_panic :
    F64.expDistributionFromMargins exLibm (fin 800) (fin 8) (exMargins9.map fin) = .error .assertion := by
  unfold F64.expDistributionFromMargins
  rw [exLogs9_eq]
  have hlen9 : exLogs9.length = 9 := rfl
  obtain ⟨xs, b, pre, post, hr, hb, hgo, hexp, hp⟩ := run_shape exLibm 8 exLogs9 (by norm_num) (by rw [hlen9]; norm_num) (by rw [hlen9]; norm_num) (by
    intro x hx
    simp only [exLogs9, List.mem_cons, List.not_mem_nil, or_false] at hx
    rcases hx with rfl | rfl | rfl | rfl | rfl | rfl | rfl | rfl | rfl <;> norm_num)
  have hb8 : b = 1 / 8 := by
    have h1 : F64.div (fin 1) (fin 8) = fin (1 / 8) := by
      simp only [F64.div]
      rw [if_neg (by norm_num)]
      exact rnd_double ⟨1, -3, by norm_num, by norm_num, by norm_num⟩ (by norm_num)
    rw [h1] at hb; cases hb; rfl
  have hperm : (pre ++ post).Perm (List.range 9) := hr.perm
  have hrange : pre ++ post = List.range 9 := by
    refine hperm.eq_of_pairwise (le := fun a b => a ≤ b) (fun a b _ _ h1 h2 => le_antisymm h1 h2) ?_ ?_
    · refine hr.sorted.imp_of_mem ?_
      intro a b ha hb' h
      have h1 : a < 9 := by simpa using hperm.mem_iff.1 ha
      have h2 : b < 9 := by simpa using hperm.mem_iff.1 hb'
      rw [lg_ex h1, lg_ex h2] at h
      have : (a : ℝ) ≤ b := by linarith
      exact_mod_cast this
    · decide
  have hget : ∀ i, i < 9 → (pre ++ post)[i]? = some i := by
    intro i hi; rw [hrange]; simp [hi]
  have hlen : pre.length + post.length = 9 := by
    have := congrArg List.length hrange; simpa using this
  have hge : 7 ≤ pre.length := by
    by_contra hc
    have hc : pre.length < 7 := by omega
    rcases hr.stop with h | ⟨k, t, α, hk, -, hα, hαd, hαS, -⟩
    · rw [h] at hlen; simp at hlen; omega
    have hkk : k = pre.length := by
      have := hget pre.length (by omega)
      rw [hk] at this
      simpa using this
    have hk9 : k < 9 := by omega
    set e := Real.exp (lg exLogs9 k) with he
    have he0 : 0 < e := Real.exp_pos _
    have ht : ∀ j ∈ t, Real.exp (lg exLogs9 j) ≤ 1 / 1000 * e := by
      intro j hj
      have hj9 : j < 9 := by simpa using hperm.mem_iff.1 (show j ∈ pre ++ post by rw [hk]; simp [hj])
      have hkj : k < j := by
        have : (pre ++ post).Pairwise (· < ·) := by rw [hrange]; decide
        rw [hk] at this
        exact (List.pairwise_cons.1 (List.pairwise_append.1 this).2.1).1 j hj
      have h1 : lg exLogs9 j ≤ -100 + lg exLogs9 k := by
        rw [lg_ex hk9, lg_ex hj9]
        have : (k : ℝ) + 1 ≤ j := by exact_mod_cast hkj
        linarith
      have h2 := Real.exp_le_exp.mpr h1
      rw [Real.exp_add] at h2
      refine h2.trans (mul_le_mul_of_nonneg_right (exp_hundred.trans (by norm_num)) he0.le)
    have htl : (t.length : ℝ) ≤ 9 := by
      have : t.length ≤ 9 := by rw [hk] at hlen; simp at hlen; omega
      exact_mod_cast this
    have hS : esum exLogs9 post ≤ 2 * e := by
      have h1 := sum_map_le_sum (fun j => Real.exp (lg exLogs9 j)) (fun _ => 1 / 1000 * e) t ht
      rw [sum_const] at h1
      have h2 : (t.length : ℝ) * (1 / 1000 * e) ≤ 9 * (1 / 1000 * e) := mul_le_mul_of_nonneg_right htl (by positivity)
      rw [hk, esum, List.map_cons, List.sum_cons]
      linarith
    have hS' : esum exLogs9 post ≤ 3 / 2 * e := by
      have h1 := sum_map_le_sum (fun j => Real.exp (lg exLogs9 j)) (fun _ => 1 / 1000 * e) t ht
      rw [sum_const] at h1
      have h2 : (t.length : ℝ) * (1 / 1000 * e) ≤ 9 * (1 / 1000 * e) := mul_le_mul_of_nonneg_right htl (by positivity)
      rw [hk, esum, List.map_cons, List.sum_cons]
      linarith
    have h3 : α * esum exLogs9 post ≤ 3 / 2 * (α * e) := by
      have := mul_le_mul_of_nonneg_left hS' hα
      linarith
    have hc0 : (2 : ℝ) / 8 ≤ 1 - (pre.length : ℝ) / 8 := by
      have : (pre.length : ℝ) ≤ 6 := by exact_mod_cast (show pre.length ≤ 6 by omega)
      linarith
    rw [abs_of_pos (show (0 : ℝ) < 1 - (pre.length : ℝ) / 8 by linarith)] at hαS
    have := (abs_le.mp hαS).1
    linarith
  have hle : pre.length ≤ 7 := by
    by_contra hc
    obtain ⟨p, k, q, hpq, hpl⟩ : ∃ p k q, pre = p ++ k :: q ∧ p.length = 7 := by
      refine ⟨pre.take 7, pre[7]'(by omega), pre.drop 8, ?_, by simp; omega⟩
      rw [← List.drop_eq_getElem_cons, List.take_append_drop]
    have hrr : p ++ (k :: (q ++ post)) = List.range 9 := by rw [← hrange, hpq]; simp
    have hdrop : k :: (q ++ post) = [7, 8] := by
      have h1 := congrArg (List.drop 7) hrr
      rw [List.drop_left' hpl] at h1
      rw [h1]; decide
    have hk : k = 7 := by injection hdrop
    have := hgo p k q hpq
    rw [hdrop, sumHead_78, hpl, hk, lg_ex (by norm_num)] at this
    norm_num at this
    exact this stops_7
  have h7 : pre.length = 7 := le_antisymm hle hge
  have hpost : post = [7, 8] := by
    have h1 := congrArg (List.drop 7) hrange
    rw [List.drop_left' h7] at h1
    rw [h1]; decide
  have hx7 := hexp 7 (by rw [hpost]; simp)
  obtain ⟨z, hz, hz8⟩ := exp_above
  have hl7 : lg exLogs9 7 = 0 := by rw [lg_ex (by norm_num)]; norm_num
  rw [hpost, h7, sumHead_78, xi_7, hl7, add_zero_ln8, hz] at hx7
  have hx7' : z = xs.getD 7 0 := by injection hx7
  have hlx : xs.length = 9 := hr.len
  have hmem : xs.getD 7 0 ∈ xs := by
    have h7l : 7 < xs.length := by omega
    have : xs.getD 7 0 = xs[7] := by simp [List.getD, List.getElem?_eq_getElem h7l]
    rw [this]; exact List.getElem_mem h7l
  have hno : checkCapped (xs.map fin) (fin 8) ≠ .ok () := by
    intro hc
    obtain ⟨-, -, hall⟩ := (check_iff hb (by omega)).1 hc
    have := (hall _ hmem).2
    rw [← hx7', hb8] at this
    linarith
  cases hc : checkCapped (xs.map fin) (fin 8) with
  | ok _ => exact absurd hc hno
  | error e => rw [hp, hc, check_error hc]

/-- The library of the counterexample is as good as it gets: it is exact before the final rounding, and its exponential is at most one
for arguments up to zero, so that the softmax of the same logarithms is computed. -/
example : ∃ xs : List ℝ, F64.projectCapped exLibm (fin 1) (exLogs9.map fin) = .ok (xs.map fin) ∧ Spec.dist1 xs (Spec.softmax exLogs9) ≤ 3 / 10 ^ 5 := by
  obtain ⟨xs, h1, -, -, -, h2⟩ := softmax_f64_returns exLibm (fun x hx => Real.exp_le_one_iff.mpr hx) exLogs9 (by simp [exLogs9]) (by simp [exLogs9])
    (by
      intro x hx
      simp only [exLogs9, List.mem_cons, List.not_mem_nil, or_false] at hx
      rcases hx with rfl | rfl | rfl | rfl | rfl | rfl | rfl | rfl | rfl <;> norm_num)
    (by
      intro x hx
      simp only [exLogs9, List.mem_cons, List.not_mem_nil, or_false] at hx
      rcases hx with rfl | rfl | rfl | rfl | rfl | rfl | rfl | rfl | rfl
      · simpa using double_int (k := 700) (by norm_num)
      · simpa using double_int (k := 600) (by norm_num)
      · simpa using double_int (k := 500) (by norm_num)
      · simpa using double_int (k := 400) (by norm_num)
      · simpa using double_int (k := 300) (by norm_num)
      · simpa using double_int (k := 200) (by norm_num)
      · simpa using double_int (k := 100) (by norm_num)
      · simpa using double_int (k := 0) (by norm_num)
      · simpa using double_int (k := -100) (by norm_num))
  exact ⟨xs, h1, h2⟩

/-- The hypotheses of `project_f64_returns_partial` are met: three examples, the cap `1/2`; the hardest example is far above the cap, the
other two share the rest. -/
example (L : Libm) : ∃ r, F64.projectCapped L (fin 2) ([10, 0, 0].map fin) = .ok r := by
  have he : (100 : ℝ) ≤ Real.exp 10 := by
    have h := Real.exp_one_gt_d9
    have e : Real.exp 10 = Real.exp 1 ^ 10 := by rw [← Real.exp_nat_mul]; norm_num
    rw [e]
    calc (100 : ℝ) ≤ 2.7182818283 ^ 10 := by norm_num
      _ ≤ _ := by gcongr
  refine project_f64_returns_partial L 2 [10, 0, 0] (by norm_num) (by norm_num) (by norm_num) (by
    intro x hx
    simp only [List.mem_cons, List.not_mem_nil, or_false] at hx
    rcases hx with rfl | rfl | rfl <;> norm_num) (1 / 4) (by norm_num) ?_ ?_ ?_
  · simp only [List.map_cons, List.map_nil, List.sum_cons, List.sum_nil, Real.exp_zero]
    rw [min_eq_left (by linarith), min_eq_right (by norm_num)]
    norm_num
  · intro a ha
    simp only [List.mem_cons, List.not_mem_nil, or_false] at ha
    rcases ha with rfl | rfl | rfl
    · rw [abs_of_pos (by linarith)]; linarith
    · rw [Real.exp_zero]; norm_num
    · rw [Real.exp_zero]; norm_num
  · simp only [List.map_cons, List.map_nil, List.sum_cons, List.sum_nil, Real.exp_zero]
    rw [if_neg (by linarith), if_pos (by norm_num)]
    norm_num

end Miniboosts.Props
