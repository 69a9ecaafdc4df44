import Verif.Props.FloatMada
import Mathlib.Analysis.Complex.ExponentialBounds

/-! # MadaBoost in `f64` can panic on a valid sample (C120) -/

namespace Miniboosts.Props

open Miniboosts F64 MadaBoostF

/-- `ln 2` to twenty decimals. -/
theorem log_two_near : |Real.log 2 - 6243314768165359 / 2 ^ 53| < 1 / 2 ^ 55 := by
  have t : |(1 / 2 : ℝ)| = 1 / 2 := abs_of_pos (by norm_num)
  have z := Real.abs_log_sub_add_sum_range_le (show |(1 / 2 : ℝ)| < 1 by rw [t]; norm_num) 60
  rw [t, show (1 - 1 / 2 : ℝ) = 2⁻¹ by norm_num, Real.log_inv] at z
  have e : (∑ i ∈ Finset.range 60, (1 / 2 : ℝ) ^ (i + 1) / ((i : ℝ) + 1)) =
      ((∑ i ∈ Finset.range 60, (1 / 2 : ℚ) ^ (i + 1) / ((i : ℚ) + 1) : ℚ) : ℝ) := by push_cast; rfl
  rw [e] at z
  have v : |(∑ i ∈ Finset.range 60, (1 / 2 : ℚ) ^ (i + 1) / ((i : ℚ) + 1) : ℚ) - 6243314768165359 / 2 ^ 53| < 1 / 2 ^ 55 - 1 / 2 ^ 58 := by
    decide +kernel
  have v' : |((∑ i ∈ Finset.range 60, (1 / 2 : ℚ) ^ (i + 1) / ((i : ℚ) + 1) : ℚ) : ℝ) - 6243314768165359 / 2 ^ 53| < 1 / 2 ^ 55 - 1 / 2 ^ 58 := by
    have := (Rat.cast_lt (K := ℝ)).mpr v
    push_cast at this ⊢
    exact this
  generalize ((∑ i ∈ Finset.range 60, (1 / 2 : ℚ) ^ (i + 1) / ((i : ℚ) + 1) : ℚ) : ℝ) = q at *
  have z' := abs_le.mp z
  have v'' := abs_lt.mp v'
  norm_num at z' v'' ⊢
  rw [abs_lt]
  constructor <;> linarith

theorem rnd_of_rep {x : ℝ} (h : Rep x) (h1 : |x| ≤ 10 ^ 20) : rnd x = fin x := by rw [rnd_small h1, round_of_rep h]

theorem rep_dyadic (k : ℤ) (j : ℕ) (hk : |k| < 2 ^ 53) (hj : j ≤ 1074) : Rep ((k : ℝ) / 2 ^ j) :=
  ⟨k, -j, hk, by omega, by rw [zpow_neg, zpow_natCast, div_eq_mul_inv]⟩

/-- `2.0.ln()`, correctly rounded. -/
theorem ln_two : ln exLibm (fin 2) = fin (6243314768165359 / 2 ^ 53) := by
  have h := log_two_near
  have h' := abs_lt.mp h
  have hlo : (1 : ℝ) / 2 ≤ Real.log 2 := by norm_num at h' ⊢; linarith
  have hhi : Real.log 2 < 1 := by norm_num at h' ⊢; linarith
  show (if (0 : ℝ) < 2 then rnd (Real.log 2) else _) = _
  rw [if_pos (by norm_num), rnd_small (by rw [abs_of_pos (by linarith)]; linarith)]
  rw [round_of_log (e := -53) (by norm_num) (by rw [abs_of_pos (by linarith)]; norm_num; linarith) (by rw [abs_of_pos (by linarith)]; norm_num; linarith)]
  rw [roundEven_eq_of_lt (k := 6243314768165359) (by
    have : (2 : ℝ) ^ (-53 : ℤ) = 1 / 2 ^ 53 := by norm_num
    rw [this, abs_lt]
    norm_num at h' ⊢
    constructor <;> linarith)]
  norm_num

/-- `0.5 + 2.0.ln()` is a tie and is rounded up. -/
theorem half_add_ln : add (fin (1 / 2)) (fin (6243314768165359 / 2 ^ 53)) = fin (10746914395535856 / 2 ^ 53) := by
  show rnd _ = _
  have e : (1 / 2 : ℝ) + 6243314768165359 / 2 ^ 53 = 10746914395535855 / 2 ^ 53 := by norm_num
  rw [e, rnd_small (by rw [abs_of_pos (by norm_num)]; norm_num),
    round_of_log (e := -52) (by norm_num) (by rw [abs_of_pos (by norm_num)]; norm_num) (by rw [abs_of_pos (by norm_num)]; norm_num),
    roundEven_tie (k := 5373457197767927) _ (by norm_num), if_neg (by decide)]
  congr 1
  norm_num

/-- The weight of an example: not `1/2`, but the next smaller number. -/
theorem exp_wrong : exp exLibm (fin (-(6243314768165360 / 2 ^ 53))) = fin ((2 ^ 53 - 1) / 2 ^ 54) := by
  have h := abs_lt.mp log_two_near
  set t : ℝ := 6243314768165360 / 2 ^ 53 - Real.log 2 with ht
  have ht1 : 3 / 4 * (1 / 2 ^ 53) < t := by norm_num at h ⊢; rw [ht]; norm_num; linarith
  have ht2 : t < 5 / 4 * (1 / 2 ^ 53) := by norm_num at h ⊢; rw [ht]; norm_num; linarith
  have ht0 : 0 < t := by linarith [show (0 : ℝ) < 3 / 4 * (1 / 2 ^ 53) by norm_num]
  have e : Real.exp (-(6243314768165360 / 2 ^ 53)) = 1 / 2 * Real.exp (-t) := by
    rw [show (-(6243314768165360 / 2 ^ 53) : ℝ) = -Real.log 2 + -t by rw [ht]; ring, Real.exp_add, Real.exp_neg, Real.exp_log (by norm_num)]
    norm_num
  have l1 : 1 - t ≤ Real.exp (-t) := by have := Real.add_one_le_exp (-t); linarith
  have l2 : Real.exp (-t) ≤ 1 - t + t ^ 2 := by
    have := Real.abs_exp_sub_one_sub_id_le (x := -t) (by rw [abs_neg, abs_of_pos ht0]; norm_num at ht2 ⊢; linarith)
    have := (abs_le.mp this).2
    nlinarith
  have l3 : t ^ 2 ≤ 1 / 8 * (1 / 2 ^ 53) := by
    have : t * t ≤ (1 / 16) * (5 / 4 * (1 / 2 ^ 53)) := mul_le_mul (by norm_num at ht2 ⊢; linarith) ht2.le ht0.le (by norm_num)
    norm_num at this ⊢
    nlinarith
  show rnd (Real.exp _) = _
  rw [e]
  have b1 : (1 / 4 : ℝ) ≤ 1 / 2 * Real.exp (-t) := by norm_num at ht2 ⊢; linarith
  have b2 : 1 / 2 * Real.exp (-t) < 1 / 2 := by norm_num at ht1 l3 ⊢; linarith
  rw [rnd_small (by rw [abs_of_pos (by linarith)]; linarith),
    round_of_log (e := -54) (by norm_num) (by rw [abs_of_pos (by linarith)]; norm_num at b1 ⊢; linarith) (by rw [abs_of_pos (by linarith)]; norm_num at b2 ⊢; linarith),
    roundEven_eq_of_lt (k := 9007199254740991) (by
      have : (2 : ℝ) ^ (-54 : ℤ) = 1 / 2 ^ 54 := by norm_num
      rw [this, abs_lt]
      norm_num at ht1 ht2 l1 l2 l3 ⊢
      constructor <;> linarith)]
  congr 1
  norm_num

/-- The hypothesis that is wrong on both examples. -/
noncomputable def exWrongF : Fn Nat F64 := ⟨fun i => if i = 0 then fin (-1) else fin 1⟩

theorem normalizer_two {idx : List Nat} (h : idx.Perm (List.range 2)) : normalizer exLibm [fin (1 / 2), fin (1 / 2)] idx = some (fin (10746914395535856 / 2 ^ 53)) := by
  have hl : F64.logAddExp exLibm (fin (1 / 2)) (fin (1 / 2)) = fin (10746914395535856 / 2 ^ 53) := by
    unfold F64.logAddExp
    rw [if_neg (show ¬ Lt (fin (1 / 2)) (fin (1 / 2)) from lt_irrefl (1 / 2 : ℝ))]
    have h1 : sub (fin (1 / 2)) (fin (1 / 2)) = fin 0 := by
      show rnd (1 / 2 + -(1 / 2)) = _
      rw [add_neg_cancel]
      exact rnd_of_rep rep_zero (by norm_num)
    have h2 : exp exLibm (fin 0) = fin 1 := by
      show rnd (Real.exp 0) = _
      rw [Real.exp_zero]; exact rnd_of_rep SmoothBoostF.rep_one (by norm_num)
    have h3 : add (fin 1) (fin 1) = fin 2 := by
      show rnd (1 + 1) = _
      rw [show (1 + 1 : ℝ) = 2 by norm_num]
      exact rnd_of_rep ⟨2, 0, by norm_num, by norm_num, by norm_num⟩ (by norm_num)
    rw [h1, h2, h3, ln_two, half_add_ln]
  have hlen := h.length_eq
  match idx, hlen with
  | [i, j], _ =>
    have hi : i < 2 := by simpa using h.subset (List.mem_cons_self)
    have hj : j < 2 := by simpa using h.subset (List.mem_cons_of_mem _ List.mem_cons_self)
    have gi : ∀ i < 2, [fin (1 / 2), fin (1 / 2)].getD i nan = fin (1 / 2) := by
      intro i hi
      have : i = 0 ∨ i = 1 := by omega
      rcases this with rfl | rfl <;> rfl
    simp only [normalizer, List.foldl_cons, List.foldl_nil, gi i hi, gi j hj, hl]

/-- However the work is divided, the sum of two equal numbers is the same. -/
theorem split_two {a b : F64} (h0 : add (fin 0) (fin 0) = fin 0) (h1 : add (fin 0) a = a) (h2 : add a (fin 0) = a) (h3 : add a a = b) (h4 : add (fin 0) b = b)
    (h5 : add b (fin 0) = b) (t : Split F64) :
    (t.items = [] → t.sum add (fin 0) = fin 0) ∧ (t.items = [a] → t.sum add (fin 0) = a) ∧ (t.items = [a, a] → t.sum add (fin 0) = b) := by
  induction t with
  | seq xs =>
    refine ⟨?_, ?_, ?_⟩ <;> intro h <;> simp only [Split.items] at h <;> subst h <;>
      simp only [Split.sum, Split.foldWith, List.foldl_cons, List.foldl_nil, h1, h3]
  | join l r ihl ihr =>
    have hj : (Split.join l r).sum add (fin 0) = add (l.sum add (fin 0)) (r.sum add (fin 0)) := rfl
    simp only [Split.items, hj]
    refine ⟨fun h => ?_, fun h => ?_, fun h => ?_⟩
    · obtain ⟨e1, e2⟩ := List.append_eq_nil_iff.mp h
      rw [ihl.1 e1, ihr.1 e2, h0]
    · rcases List.append_eq_cons_iff.mp h with ⟨e1, e2⟩ | ⟨l', e1, e2⟩
      · rw [ihl.1 e1, ihr.2.1 e2, h1]
      · obtain ⟨e3, e4⟩ := List.append_eq_nil_iff.mp e2.symm
        rw [e3] at e1
        rw [ihl.2.1 e1, ihr.1 e4, h2]
    · rcases List.append_eq_cons_iff.mp h with ⟨e1, e2⟩ | ⟨l', e1, e2⟩
      · rw [ihl.1 e1, ihr.2.2 e2, h4]
      · rcases List.append_eq_cons_iff.mp e2.symm with ⟨e3, e4⟩ | ⟨l'', e3, e4⟩
        · rw [e3] at e1
          rw [ihl.2.1 e1, ihr.2.1 e4, h3]
        · obtain ⟨e5, e6⟩ := List.append_eq_nil_iff.mp e4.symm
          rw [e3, e5] at e1
          rw [ihl.2.2 e1, ihr.1 e6, h5]

/-- C120: a correctly rounded library, the two examples, a learner that is always wrong: MadaBoost always panics in its first round.  (In exact arithmetic the edge is
`-1` and boosting stops.  Here the weights sum up to `1 - 2⁻⁵³`, the edge is above `-1`, but `1 - edge` is rounded to `2`; so the error is one and the assertion
fails.) -/
theorem madaboost_f64_can_panic :
    checkBinary exSample = .ok () ∧
    (∃ r, (MadaBoostF.booster exLibm exSample).Runs (fun _ _ => exWrongF) (MadaBoostF.init exSample) r) ∧
    ∀ r, (MadaBoostF.booster exLibm exSample).Runs (fun _ _ => exWrongF) (MadaBoostF.init exSample) r → r = .error .assertion := by
  refine ⟨exSample_valid, exists_runMada _ _ _ _, ?_⟩
  have hhalf : F64.div (fin 1) (fin (2 : ℕ)) = fin (1 / 2) := by
    simp only [F64.div, Nat.cast_ofNat, if_neg (two_ne_zero' ℝ)]
    exact rnd_of_rep ⟨1, -1, by norm_num, by norm_num, by norm_num⟩ (by norm_num)
  have hp : ∃ s₀, (MadaBoostF.booster exLibm exSample).preprocess (MadaBoostF.init exSample : MadaBoostF (Fn Nat F64)) (fun _ _ => exWrongF) = .ok s₀ ∧
      s₀.betas = [fin (1 / 2), fin (1 / 2)] ∧ 1 ≤ s₀.maxIter := by
    refine ⟨_, by
      show MadaBoostF.preprocess exSample _ = _
      unfold MadaBoostF.preprocess
      rw [exSample_valid], ?_, ?_⟩
    · show List.replicate 2 (F64.div (fin 1) (fin (2 : ℕ))) = _
      rw [hhalf]; rfl
    · show 1 ≤ maxLoop exSample (MadaBoostF.init exSample : MadaBoostF (Fn Nat F64))
      have t1 : ∃ t, (MadaBoostF.init exSample : MadaBoostF (Fn Nat F64)).tolerance = fin t ∧ 1 / 4 ≤ t ∧ t ≤ 1 / 2 := by
        have e1 : add (fin ((2 : ℕ) : ℝ)) (fin 1) = fin 3 := by
          show rnd _ = _
          rw [show ((2 : ℕ) : ℝ) + 1 = 3 by norm_num]
          exact rnd_of_rep ⟨3, 0, by norm_num, by norm_num, by norm_num⟩ (by norm_num)
        refine ⟨F64.round (1 / 3), ?_, rep_le_round ⟨1, -2, by norm_num, by norm_num, by norm_num⟩ (by norm_num),
          round_le_rep ⟨1, -1, by norm_num, by norm_num, by norm_num⟩ (by norm_num)⟩
        show F64.div (fin 1) (add (fin ((2 : ℕ) : ℝ)) (fin 1)) = _
        rw [e1]
        simp only [F64.div, if_neg (three_ne_zero' ℝ)]
        exact rnd_small (by norm_num)
      obtain ⟨t, ht, h1, h2⟩ := t1
      have e2 : sub (fin ((2 : ℕ) : ℝ)) (fin 1) = fin 1 := by
        show rnd _ = _
        rw [show ((2 : ℕ) : ℝ) + -1 = 1 by norm_num]
        exact rnd_of_rep SmoothBoostF.rep_one (by norm_num)
      have e3 : F64.sq (fin t) = fin (F64.round (t * t)) := rnd_small (by rw [abs_of_nonneg (by positivity)]; nlinarith)
      have e4 : 1 / 16 ≤ F64.round (t * t) := rep_le_round ⟨1, -4, by norm_num, by norm_num, by norm_num⟩ (by nlinarith)
      have e5 : F64.round (t * t) ≤ 1 / 4 := round_le_rep ⟨1, -2, by norm_num, by norm_num, by norm_num⟩ (by nlinarith)
      have e6 : (1 : ℝ) ≤ 1 / F64.round (t * t) := by rw [le_div_iff₀ (by linarith)]; linarith
      have e7 : 1 / F64.round (t * t) ≤ 16 := by rw [div_le_iff₀ (by linarith)]; linarith
      have e8 : F64.div (fin 1) (fin (F64.round (t * t))) = fin (F64.round (1 / F64.round (t * t))) := by
        simp only [F64.div, if_neg (show F64.round (t * t) ≠ 0 by linarith)]
        exact rnd_small (by rw [abs_of_pos (by linarith)]; linarith)
      show 1 ≤ ceilUsize (F64.div (sub (fin ((2 : ℕ) : ℝ)) (fin 1)) (F64.sq (MadaBoostF.init exSample : MadaBoostF (Fn Nat F64)).tolerance))
      rw [ht, e2, e3, e8]
      have e9 : (1 : ℝ) ≤ F64.round (1 / F64.round (t * t)) := rep_le_round SmoothBoostF.rep_one e6
      exact le_min (Nat.one_le_ceil_iff.mpr (by linarith)) (by norm_num)
  obtain ⟨s₀, hs, hbe, hmax⟩ := hp
  set d : F64 := fin ((2 ^ 53 - 1) / 2 ^ 54) with hd
  have hmin : minNum (fin (1 / 2)) (fin 1) = fin (1 / 2) := by
    unfold minNum
    rw [if_neg (by simp), if_neg (by simp), if_pos (show Le (fin (1 / 2)) (fin 1) from by show (1 / 2 : ℝ) ≤ 1; norm_num)]
  have hsub : sub (fin (1 / 2)) (fin (10746914395535856 / 2 ^ 53)) = fin (-(6243314768165360 / 2 ^ 53)) := by
    show rnd _ = _
    have e : (1 / 2 : ℝ) + -(10746914395535856 / 2 ^ 53) = ((-6243314768165360 : ℤ) : ℝ) / 2 ^ 53 := by norm_num
    rw [e, rnd_of_rep (rep_dyadic _ _ (by norm_num) (by norm_num)) (by norm_num [abs_div])]
    congr 1
    norm_num
  have hm : F64.margins exSample exWrongF = [fin (-1), fin (-1)] := by
    have r1 : rnd (-1) = fin (-1) := rnd_of_rep ⟨-1, 0, by norm_num, by norm_num, by norm_num⟩ (by norm_num)
    have a1 : mul (fin 1) (fin (-1)) = fin (-1) := by show rnd (1 * -1) = _; rw [one_mul, r1]
    have a2 : mul (fin (-1)) (fin 1) = fin (-1) := by show rnd (-1 * 1) = _; rw [mul_one, r1]
    simp [F64.margins, exSample, exWrongF, conf, a1, a2]
  have m1 : mul (fin (-1)) d = fin (-((2 ^ 53 - 1) / 2 ^ 54)) := by
    show rnd _ = _
    have e : (-1 : ℝ) * ((2 ^ 53 - 1) / 2 ^ 54) = ((-9007199254740991 : ℤ) : ℝ) / 2 ^ 54 := by norm_num
    rw [e, rnd_of_rep (rep_dyadic _ _ (by norm_num) (by norm_num)) (by norm_num [abs_div])]
    congr 1
    norm_num
  have m2 : add (fin 0) (fin (-((2 ^ 53 - 1) / 2 ^ 54))) = fin (-((2 ^ 53 - 1) / 2 ^ 54)) := by
    show rnd _ = _
    have e : (0 : ℝ) + -((2 ^ 53 - 1) / 2 ^ 54) = ((-9007199254740991 : ℤ) : ℝ) / 2 ^ 54 := by norm_num
    rw [e, rnd_of_rep (rep_dyadic _ _ (by norm_num) (by norm_num)) (by norm_num [abs_div])]
    congr 1
    norm_num
  have m3 : add (fin (-((2 ^ 53 - 1) / 2 ^ 54))) (fin (-((2 ^ 53 - 1) / 2 ^ 54))) = fin (-((2 ^ 53 - 1) / 2 ^ 53)) := by
    show rnd _ = _
    have e : (-((2 ^ 53 - 1) / 2 ^ 54) : ℝ) + -((2 ^ 53 - 1) / 2 ^ 54) = ((-9007199254740991 : ℤ) : ℝ) / 2 ^ 53 := by norm_num
    rw [e, rnd_of_rep (rep_dyadic _ _ (by norm_num) (by norm_num)) (by norm_num [abs_div])]
    congr 1
    norm_num
  have m4 : add (fin 0) (fin (-((2 ^ 53 - 1) / 2 ^ 53))) = fin (-((2 ^ 53 - 1) / 2 ^ 53)) := by
    show rnd _ = _
    have e : (0 : ℝ) + -((2 ^ 53 - 1) / 2 ^ 53) = ((-9007199254740991 : ℤ) : ℝ) / 2 ^ 53 := by norm_num
    rw [e, rnd_of_rep (rep_dyadic _ _ (by norm_num) (by norm_num)) (by norm_num [abs_div])]
    congr 1
    norm_num
  have m5 : add (fin (-((2 ^ 53 - 1) / 2 ^ 54))) (fin 0) = fin (-((2 ^ 53 - 1) / 2 ^ 54)) := by
    have : add (fin (-((2 ^ 53 - 1) / 2 ^ 54))) (fin 0) = add (fin 0) (fin (-((2 ^ 53 - 1) / 2 ^ 54))) := by
      show rnd _ = rnd _
      rw [add_comm]
    rw [this, m2]
  have m6 : add (fin (-((2 ^ 53 - 1) / 2 ^ 53))) (fin 0) = fin (-((2 ^ 53 - 1) / 2 ^ 53)) := by
    have : add (fin (-((2 ^ 53 - 1) / 2 ^ 53))) (fin 0) = add (fin 0) (fin (-((2 ^ 53 - 1) / 2 ^ 53))) := by
      show rnd _ = rnd _
      rw [add_comm]
    rw [this, m4]
  have m0 : add (fin 0) (fin 0) = fin 0 := by
    show rnd _ = _
    rw [add_zero]; exact rnd_of_rep rep_zero (by norm_num)
  have s1 : sub (fin 1) (fin (-((2 ^ 53 - 1) / 2 ^ 53))) = fin 2 := by
    show rnd _ = _
    have e : (1 : ℝ) + -(-((2 ^ 53 - 1) / 2 ^ 53)) = 18014398509481983 / 2 ^ 53 := by norm_num
    rw [e, rnd_small (by rw [abs_of_pos (by norm_num)]; norm_num),
      round_of_log (e := -52) (by norm_num) (by rw [abs_of_pos (by norm_num)]; norm_num) (by rw [abs_of_pos (by norm_num)]; norm_num),
      roundEven_tie (k := 9007199254740991) _ (by norm_num), if_neg (by decide)]
    congr 1
    norm_num
  have s2 : eps (fin (-((2 ^ 53 - 1) / 2 ^ 53))) = fin 1 := by
    unfold eps
    rw [s1]
    show rnd _ = _
    rw [show (1 / 2 : ℝ) * 2 = 1 by norm_num]
    exact rnd_of_rep SmoothBoostF.rep_one (by norm_num)
  -- every result of the first round
  have hfirst : ∀ r, MadaBoostF.Boost exLibm exSample s₀ (fun _ _ => exWrongF) 1 r → r = .error .assertion := by
    intro r hr
    unfold MadaBoostF.Boost at hr
    rw [if_neg (by omega), hbe] at hr
    obtain ⟨q, hq, hr⟩ := hr
    unfold Beta2Distribution at hq
    simp only [List.map_cons, List.map_nil, hmin] at hq
    rw [if_neg (by
      rintro ⟨-, h⟩
      simp only [List.map_cons, List.map_nil, hmin, List.mem_cons, List.not_mem_nil, or_false, reduceCtorEq, or_self] at h)] at hq
    obtain ⟨idx, hidx, hq⟩ := hq
    rw [normalizer_two hidx.1] at hq
    simp only [hsub, exp_wrong, ← hd] at hq
    subst hq
    simp only [hm] at hr
    obtain ⟨edge, ⟨t, ht, rfl⟩, hr⟩ := hr
    simp only [List.zipWith_cons_cons, List.zipWith_nil_right, m1] at ht
    rw [(split_two m0 m2 m5 m3 m4 m6 t).2.2 ht] at hr
    rcases hr with ⟨h1, -⟩ | ⟨-, p, hp, rfl⟩
    · exfalso
      have h2 : (1 : ℝ) ≤ |(-((2 ^ 53 - 1) / 2 ^ 53))| := h1
      rw [abs_neg, abs_of_pos (by norm_num)] at h2
      norm_num at h2
    · rcases hp with ⟨-, rfl⟩ | ⟨h1, -⟩
      · rfl
      · rw [s2] at h1
        exact absurd h1.2 (lt_irrefl (1 : ℝ))
  have hloop : ∀ r, (MadaBoostF.booster exLibm exSample).Loop (fun _ _ => exWrongF) s₀ 1 r → r = .error .assertion := by
    intro r hl
    cases hl with
    | panic h => have := hfirst _ h; cases this; rfl
    | stop h hf => have := hfirst _ h; cases this
    | next h hf hr => have := hfirst _ h; cases this
  intro r hr
  cases hr with
  | pre h => rw [hs] at h; cases h
  | loop h hl =>
    rw [hs, Except.ok.injEq] at h; subst h
    have := hloop _ hl
    cases this; rfl
  | post h hl hp =>
    rw [hs, Except.ok.injEq] at h; subst h
    have := hloop _ hl
    cases this
  | ok h hl hp =>
    rw [hs, Except.ok.injEq] at h; subst h
    have := hloop _ hl
    cases this

end Miniboosts.Props
