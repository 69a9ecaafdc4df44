import Verif.Lemmas.FloatObjective
import Verif.Spec.FloatObjective
import Verif.Props.Objective
import Verif.Props.Hypothesis
import Verif.Props.FloatCERLPCap

/-! # The objective functions in `f64` (C129) -/

namespace Miniboosts.Props

open Miniboosts Spec F64 CERLPBoostF

variable {H X : Type*} [Classifier H X F64]

/-- The exact margins. -/
noncomputable def exactMargins (S : Examples X ℝ) (h : H) : List ℝ := S.map fun e => e.2 * (conf h e.1 : F64).val

theorem margins_fin {S : Examples X ℝ} (hS : PmLabels S) {h : H} (hc : FiniteConf S h) :
    (S.map fun e => mul (fin e.2) (conf h e.1)) = (exactMargins S h).map fin ∧ ∀ m ∈ exactMargins S h, |m| ≤ 2 ∧ Double m := by
  unfold exactMargins
  rw [List.map_map]
  constructor
  · refine List.map_congr_left fun e he => ?_
    obtain ⟨c, h1, h2, h3⟩ := hc e he
    simp only [Function.comp, h1, val]
    exact pm_mul (hS e he) h3 (h2.trans (by norm_num))
  · intro m hm
    obtain ⟨e, he, rfl⟩ := List.mem_map.1 hm
    obtain ⟨c, h1, h2, h3⟩ := hc e he
    simp only [h1, val]
    exact ⟨by rw [pm_abs (hS e he)]; exact h2, pm_rep (hS e he) h3⟩

theorem sort_fin (ms : List ℝ) : sortMargins (ms.map fin) = .ok ((ms.mergeSort fun a b => decide (a ≤ b)).map fin) := by
  classical
  unfold sortMargins
  have h : ¬ (2 ≤ (ms.map fin).length ∧ nan ∈ ms.map fin) := by
    rintro ⟨-, h⟩
    obtain ⟨x, -, hx⟩ := List.mem_map.1 h
    cases hx
  rw [if_neg h, Except.ok.injEq]
  symm
  apply List.map_mergeSort
  intro a _ b _
  exact decide_eq_decide.mpr Iff.rfl

/-- The exact loop on the sorted margins is their soft margin (C49). -/
theorem softMargin_value {nu : ℝ} {ms : List ℝ} (hne : ms ≠ []) (h1 : 1 ≤ nu) (h2 : nu ≤ ms.length) :
    IsSoftMargin nu ms (softLoop (1 / nu) (ms.mergeSort fun a b => decide (a ≤ b)) 1 0) := by
  have hlen : (ms.map fun m => (m, (1 : ℝ))).length = ms.length := List.length_map _
  have hmar : ((ms.map fun m => (m, (1 : ℝ))).map fun e => e.2 * (conf (Fn.mk (id : ℝ → ℝ)) e.1 : ℝ)) = ms := by
    rw [List.map_map]
    conv_rhs => rw [← List.map_id ms]
    refine List.map_congr_left fun m _ => ?_
    simp only [Function.comp]
    exact one_mul _
  have hv : softMarginEval nu 1 (ms.map fun m => (m, (1 : ℝ))) (Fn.mk (id : ℝ → ℝ)) = .ok (softLoop (1 / nu) (ms.mergeSort fun a b => decide (a ≤ b)) 1 0) := by
    unfold softMarginEval checkSample checkNu
    rw [hlen, if_pos ⟨List.length_pos_iff.2 hne, Nat.one_pos⟩]
    simp only
    rw [if_pos ⟨h1, h2⟩]
    simp only [evalMargins_eq, hmar]
  obtain ⟨⟨d, d1, d2, d3⟩, hmin⟩ := softMargin_is_min nu 1 _ _ _ hv
  rw [hlen] at d1 hmin
  refine ⟨⟨d, d1, d2, ?_⟩, ?_⟩
  · rw [← d3, edge_eq_zipWith, hmar]
  · rintro x ⟨d', e1, e2, rfl⟩
    have := hmin d' e1 e2
    rwa [edge_eq_zipWith, hmar] at this

/-- C129: on labels `±1` and finite confidences, the soft-margin objective computed in `f64` is a number within `10⁻⁹` of the soft margin: the least average margin under a
distribution with entries at most `1/ν`. -/
theorem softMargin_f64 {S : Examples X ℝ} (hne : S ≠ []) (hS : PmLabels S) (hn : S.length ≤ 10 ^ 5) {nFeature : ℕ} (hf : 0 < nFeature) {nu : ℝ} (h1 : 1 ≤ nu) (h2 : nu ≤ S.length)
    {h : H} (hc : FiniteConf S h) :
    ∃ v V : ℝ, softMarginEvalF (fin nu) nFeature S h = .ok (fin v) ∧ IsSoftMargin nu (S.map fun e => e.2 * (conf h e.1 : F64).val) V ∧ |v - V| ≤ 1 / 10 ^ 9 := by
  classical
  obtain ⟨m1, m2⟩ := margins_fin hS hc
  have hlen : (exactMargins S h).length = S.length := List.length_map _
  have hmne : exactMargins S h ≠ [] := by
    rw [← List.length_pos_iff, hlen]; exact List.length_pos_iff.2 hne
  have hn' : (S.length : ℝ) ≤ 10 ^ 5 := by exact_mod_cast hn
  have hnu : (0 : ℝ) < nu := by linarith
  have hu1 : 1 / nu ≤ 1 := by rw [div_le_one hnu]; exact h1
  have hu0 : 1 / 10 ^ 5 ≤ 1 / nu := one_div_le_one_div_of_le hnu (h2.trans hn')
  have hup : 0 < 1 / nu := by positivity
  have hdiv : div (fin 1) (fin nu) = fin (F64.round (1 / nu)) := by
    show (if nu = 0 then _ else rnd (1 / nu)) = _
    rw [if_neg hnu.ne']
    exact rnd_small (by rw [abs_of_pos hup]; exact hu1.trans (by norm_num))
  have hU : |F64.round (1 / nu) - 1 / nu| ≤ 2 * u := by
    have e := round_err (1 / nu)
    have : u * |1 / nu| ≤ u * 1 := by
      have := u_pos
      rw [abs_of_pos hup]
      gcongr
    have := eta_le_u
    linarith
  obtain ⟨r, r1, r2⟩ := softLoopF_near hu0 hu1 hU ((exactMargins S h).mergeSort fun a b => decide (a ≤ b)) 0 1 0 1 0
    (fun m hm => (m2 m (List.mem_mergeSort.1 hm)).1) (by rw [List.length_mergeSort, hlen]; exact hn) (by simp) one_pos le_rfl zero_le_one (by simp) (by simp)
  refine ⟨r, _, ?_, softMargin_value hmne h1 (by rw [List.length_map]; exact h2), r2.trans ?_⟩
  · unfold softMarginEvalF checkSample checkNuF
    rw [if_pos ⟨List.length_pos_iff.2 hne, hf⟩]
    simp only
    rw [if_pos ⟨h1, h2⟩]
    simp only
    rw [m1, sort_fin, hdiv]
    exact congrArg _ r1
  · have := u_small
    norm_num at this ⊢
    linarith

/-- C129: the hard-margin objective computed in `f64` is exact: the least margin. -/
theorem hardMargin_f64 {S : Examples X ℝ} (hne : S ≠ []) (hS : PmLabels S) {nFeature : ℕ} (hf : 0 < nFeature) {h : H} (hc : FiniteConf S h) :
    ∃ v : ℝ, hardMarginEvalF nFeature S h = .ok (fin v) ∧ (∃ e ∈ S, v = e.2 * (conf h e.1 : F64).val) ∧ ∀ e ∈ S, v ≤ e.2 * (conf h e.1 : F64).val := by
  classical
  obtain ⟨m1, m2⟩ := margins_fin hS hc
  have hlen : (exactMargins S h).length = S.length := List.length_map _
  have hdiv : div (fin 1) (fin 1) = fin 1 := by
    show (if (1 : ℝ) = 0 then _ else rnd (1 / 1)) = _
    rw [if_neg one_ne_zero, div_one, rnd_small (by norm_num), round_one]
  have hS1 : (1 : ℝ) ≤ S.length := by exact_mod_cast List.length_pos_iff.2 hne
  have hev : hardMarginEvalF nFeature S h = .ok (softLoopF (fin 1) (((exactMargins S h).mergeSort fun a b => decide (a ≤ b)).map fin) (fin 1) (fin 0)) := by
    unfold hardMarginEvalF softMarginEvalF checkSample checkNuF
    rw [if_pos ⟨List.length_pos_iff.2 hne, hf⟩]
    simp only
    rw [if_pos ⟨le_rfl, hS1⟩]
    simp only
    rw [m1, sort_fin, hdiv]
    rfl
  have hsorted := List.pairwise_mergeSort (le := fun a b : ℝ => decide (a ≤ b)) (fun a b c => by simp only [decide_eq_true_eq]; exact le_trans)
    (fun a b => by simp only [Bool.or_eq_true, decide_eq_true_eq]; exact le_total a b) (exactMargins S h)
  have hmem : ∀ m, m ∈ (exactMargins S h).mergeSort (fun a b => decide (a ≤ b)) ↔ m ∈ exactMargins S h := fun m => List.mem_mergeSort
  cases hl : (exactMargins S h).mergeSort fun a b => decide (a ≤ b) with
  | nil =>
    exfalso
    have := congrArg List.length hl
    rw [List.length_mergeSort, hlen] at this
    exact hne (List.length_eq_zero_iff.1 this)
  | cons m ms =>
    rw [hl] at hev hsorted hmem
    obtain ⟨b1, b2⟩ := m2 m ((hmem m).1 (by simp))
    refine ⟨m, hev.trans ?_, ?_, ?_⟩
    · congr 1
      rw [List.map_cons, softLoopF]
      refine (if_neg (lt_irrefl (1 : ℝ))).trans ?_
      have hmm : mul (fin 1) (fin m) = fin m := by
        rw [pm_mul (.inl rfl) b2 (b1.trans (by norm_num)), one_mul]
      rw [hmm]
      change rnd (0 + m) = _
      rw [zero_add, rnd_small (b1.trans (by norm_num)), round_of_rep b2]
    · obtain ⟨e, he, hee⟩ := List.mem_map.1 ((hmem m).1 (by simp))
      exact ⟨e, he, hee.symm⟩
    · intro e he
      have := (hmem (e.2 * (conf h e.1 : F64).val)).2 (List.mem_map.2 ⟨e, he, rfl⟩)
      rcases List.mem_cons.1 this with h' | h'
      · exact h'.ge
      · have := (List.pairwise_cons.1 hsorted).1 _ h'
        simpa using this

/-- C129: a confidence that is NaN makes both objectives panic, if there are at least two rows (and `ν` is valid). -/
theorem softMargin_f64_nan_panics {S : Examples X ℝ} (hn : 2 ≤ S.length) {nFeature : ℕ} (hf : 0 < nFeature) {nu : ℝ} (h1 : 1 ≤ nu) (h2 : nu ≤ S.length)
    {h : H} {e : X × ℝ} (he : e ∈ S) (hc : conf h e.1 = nan) : softMarginEvalF (fin nu) nFeature S h = .error .unwrapNone := by
  classical
  unfold softMarginEvalF checkSample checkNuF
  rw [if_pos ⟨by omega, hf⟩]
  simp only
  rw [if_pos ⟨h1, h2⟩]
  simp only
  have : 2 ≤ (S.map fun e => mul (fin e.2) (conf h e.1)).length ∧ nan ∈ S.map fun e => mul (fin e.2) (conf h e.1) := by
    refine ⟨by rw [List.length_map]; exact hn, List.mem_map.2 ⟨e, he, ?_⟩⟩
    rw [hc]
    rfl
  unfold sortMargins
  rw [if_pos this]
  rfl

/-- C129: the panics of the parameter check: a `ν` that is NaN, below one or above the number of rows. -/
theorem softMargin_f64_nu_panics {S : Examples X ℝ} {nFeature : ℕ} {nu : F64} (hnu : ∀ x : ℝ, nu = fin x → x < 1 ∨ (S.length : ℝ) < x) (h : H) :
    softMarginEvalF nu nFeature S h = .error .assertion := by
  classical
  have hc : checkNuF nu S.length = .error .assertion := by
    unfold checkNuF
    refine if_neg ?_
    rintro ⟨h1, h2⟩
    cases nu with
    | nan => exact h1
    | inf s => cases s <;> simp [Le] at h1 h2
    | fin x =>
      have h1 : 1 ≤ x := h1
      have h2 : x ≤ S.length := h2
      rcases hnu x rfl with h | h <;> linarith
  unfold softMarginEvalF checkSample
  by_cases hs : 0 < S.length ∧ 0 < nFeature
  · rw [if_pos hs]
    simp only [hc]
  · rw [if_neg hs]

/-- The number of rows whose label is not predicted. -/
noncomputable def wrongRows (S : Examples X ℝ) (h : H) : ℕ := S.countP fun e => decide ((predictOf h e.1 : ℝ) ≠ e.2)

/-- C129: the exponential-loss objective computed in `f64` is within `10⁻⁸` of `e·k/m + (m-k)/(e·m)`, where `k` of the `m` rows are predicted wrongly -- whatever the confidences are, even NaN --
and hence at least the error rate. -/
theorem expLoss_f64 (L : Libm) {S : Examples X ℝ} (hne : S ≠ []) (hS : PmLabels S) (hn : S.length ≤ 10 ^ 5) {nFeature : ℕ} (hf : 0 < nFeature) (h : H) :
    ∃ v : ℝ, expLossEvalF L nFeature S h = .ok (fin v) ∧
      |v - (Real.exp 1 * wrongRows S h + Real.exp (-1) * (S.length - wrongRows S h)) / S.length| ≤ 1 / 10 ^ 8 ∧ (wrongRows S h : ℝ) / S.length ≤ v := by
  classical
  have hus := u_small
  have hup := u_pos
  have hη := eta_le_u
  obtain ⟨E, E1, E2, -⟩ := exp_fin L (x := 1) (by norm_num)
  obtain ⟨F, F1, F2, -⟩ := exp_fin L (x := -1) (by norm_num)
  have he1 := Real.exp_one_lt_d9
  have he2 := Real.exp_one_gt_d9
  have hf1 : Real.exp (-1) < 1 := (Real.exp_lt_exp.mpr (by norm_num : (-1:ℝ) < 0)).trans_eq Real.exp_zero
  have hf0 : 36 / 100 < Real.exp (-1) := by
    rw [Real.exp_neg, lt_inv_comm₀ (by norm_num) (Real.exp_pos _)]
    norm_num at he1 ⊢
    linarith
  have hE0 : 0 ≤ E := exp_nonneg L E1
  have hF0 : 0 ≤ F := exp_nonneg L F1
  have rep_of : ∀ {t y : ℝ}, exp L (fin t) = fin y → Rep y := by
    intro t y hy
    change rnd _ = _ at hy
    unfold rnd at hy
    split at hy
    · cases hy
    · cases hy
      exact rep_round _
  have hE : |E - Real.exp 1| ≤ 1 / 10 ^ 13 := E2.trans (by
    have : u * Real.exp 1 ≤ 1 / 9000000000000000 * 3 := mul_le_mul hus (by linarith) (by positivity) (by norm_num)
    norm_num at this ⊢
    linarith)
  have hF : |F - Real.exp (-1)| ≤ 1 / 10 ^ 13 := F2.trans (by
    have : u * Real.exp (-1) ≤ 1 / 9000000000000000 * 3 := mul_le_mul hus (by linarith) (by positivity) (by norm_num)
    norm_num at this ⊢
    linarith)
  -- the terms
  have hterm : ∀ e ∈ S, exp L (mul (neg (fin e.2)) (fin (predictOf h e.1 : ℝ))) = fin (if (predictOf h e.1 : ℝ) ≠ e.2 then E else F) := by
    intro e he
    have hp : predictOf h e.1 = 1 ∨ predictOf h e.1 = -1 := by unfold predictOf; split <;> simp
    have hm : mul (neg (fin e.2)) (fin (predictOf h e.1 : ℝ)) = fin (-e.2 * (predictOf h e.1 : ℝ)) := by
      change mul (fin (-e.2)) _ = _
      refine pm_mul ?_ ?_ ?_
      · rcases hS e he with h | h <;> rw [h] <;> simp
      · rcases hp with h | h <;> rw [h]
        · simpa using rep_one
        · simpa using rep_neg rep_one
      · rcases hp with h | h <;> rw [h] <;> norm_num
    rw [hm]
    rcases hS e he with hy | hy <;> rcases hp with hq | hq <;> rw [hy, hq] <;> norm_num [E1, F1]
  have hmap : (S.map fun e => exp L (mul (neg (fin e.2)) (fin (predictOf h e.1 : ℝ)))) = (S.map fun e => if (predictOf h e.1 : ℝ) ≠ e.2 then E else F).map fin := by
    rw [List.map_map]
    exact List.map_congr_left hterm
  have hsum : (S.map fun e => if (predictOf h e.1 : ℝ) ≠ e.2 then E else F).sum = E * wrongRows S h + F * (S.length - wrongRows S h) := by
    unfold wrongRows
    clear hmap hterm hn hS hne
    induction S with
    | nil => simp
    | cons e S ih =>
      rw [List.map_cons, List.sum_cons, ih, List.countP_cons, List.length_cons]
      by_cases hw : (predictOf h e.1 : ℝ) ≠ e.2
      · simp only [hw, ne_eq, not_false_eq_true, if_true, decide_true]; push_cast; ring
      · simp only [hw, if_false, decide_false, Bool.false_eq_true]; push_cast; ring
  have hk : (wrongRows S h : ℝ) ≤ S.length := by exact_mod_cast List.countP_le_length
  have hk0 : (0 : ℝ) ≤ wrongRows S h := Nat.cast_nonneg _
  have hnr : (S.length : ℝ) ≤ 10 ^ 5 := by exact_mod_cast hn
  have hn0 : (0 : ℝ) < S.length := by exact_mod_cast List.length_pos_iff.2 hne
  have hE' := abs_le.mp hE
  have hF' := abs_le.mp hF
  generalize hK : (wrongRows S h : ℝ) = K at *
  have hX0 : 0 ≤ E * K + F * (S.length - K) := add_nonneg (mul_nonneg hE0 hk0) (mul_nonneg hF0 (by linarith))
  have hX3 : E * K + F * (S.length - K) ≤ 3 * S.length := by
    norm_num at hE' hF' he1
    have a : E * K ≤ 3 * K := mul_le_mul_of_nonneg_right (by linarith) hk0
    have b : F * (S.length - K) ≤ 3 * (S.length - K) := mul_le_mul_of_nonneg_right (by linarith) (by linarith)
    linarith
  obtain ⟨s, s1, s2, s3⟩ := foldl_near0 (S.map fun e => if (predictOf h e.1 : ℝ) ≠ e.2 then E else F)
    (by
      intro x hx
      obtain ⟨e, -, rfl⟩ := List.mem_map.1 hx
      split
      · exact ⟨hE0, rep_of E1⟩
      · exact ⟨hF0, rep_of F1⟩)
    ((by rw [hsum]; exact hX3 : _ ≤ 3 * (S.length : ℝ)).trans ((mul_le_mul_of_nonneg_left hnr (by norm_num)).trans (by norm_num))) (by rw [List.length_map]; omega)
  rw [hsum] at s3
  obtain ⟨b1, b2⟩ := s3.bound (by rw [List.length_map]; omega) hX0
  have hs0 : 0 ≤ s := s3.nonneg hX0
  -- the quotient
  have hq3 : s / S.length ≤ 4 := by
    rw [div_le_iff₀ hn0]
    norm_num at b2
    linarith
  have hq0 : 0 ≤ s / S.length := div_nonneg hs0 hn0.le
  have e := round_err (s / S.length)
  have e' : u * |s / S.length| ≤ 1 / 9000000000000000 * 4 := by
    rw [abs_of_nonneg hq0]
    exact mul_le_mul hus hq3 hq0 (by norm_num)
  have hev : expLossEvalF L nFeature S h = .ok (fin (F64.round (s / S.length))) := by
    unfold expLossEvalF checkSample
    rw [if_pos ⟨List.length_pos_iff.2 hne, hf⟩]
    simp only
    rw [hmap, s1]
    congr 1
    show (if (S.length : ℝ) = 0 then _ else rnd (s / S.length)) = _
    rw [if_neg hn0.ne']
    exact rnd_small (by rw [abs_of_nonneg hq0]; exact hq3.trans (by norm_num))
  have hdist : |F64.round (s / S.length) - (Real.exp 1 * K + Real.exp (-1) * (S.length - K)) / S.length| ≤ 1 / 10 ^ 8 := by
    have h1 : |s - (Real.exp 1 * K + Real.exp (-1) * (S.length - K))| ≤ 5 / 10 ^ 9 * S.length := by
      have a : |(E - Real.exp 1) * K| ≤ 1 / 10 ^ 13 * K := by rw [abs_mul, abs_of_nonneg hk0]; gcongr
      have b : |(F - Real.exp (-1)) * (S.length - K)| ≤ 1 / 10 ^ 13 * (S.length - K) := by
        rw [abs_mul, abs_of_nonneg (show 0 ≤ (S.length : ℝ) - K by linarith)]
        exact mul_le_mul_of_nonneg_right hF (by linarith)
      have a := abs_le.mp a
      have b := abs_le.mp b
      norm_num at a b b1 b2 ⊢
      rw [abs_le]
      constructor <;> linarith
    have h2 : |s / S.length - (Real.exp 1 * K + Real.exp (-1) * (S.length - K)) / S.length| ≤ 5 / 10 ^ 9 := by
      rw [← sub_div, abs_div, abs_of_pos hn0, div_le_iff₀ hn0]
      exact h1
    have e := abs_le.mp e
    have h2 := abs_le.mp h2
    norm_num at e' h2 ⊢
    rw [abs_le]
    constructor <;> linarith
  refine ⟨_, hev, hdist, ?_⟩
  have h3 : K / S.length + 36 / 100 ≤ (Real.exp 1 * K + Real.exp (-1) * (S.length - K)) / S.length := by
    rw [div_add' _ _ _ hn0.ne', div_le_div_iff_of_pos_right hn0]
    norm_num at he2
    nlinarith
  have hd := abs_le.mp hdist
  norm_num at hd
  linarith

/-- The confidence of a vote, if it is a number, is an `f64`. -/
theorem vote_double {f : WeightedMajority F64 H} {x : X} {F : ℝ} (h : F64.weightedConf f x = fin F) : Double F := by
  unfold F64.weightedConf at h
  have key : ∀ (l : List F64) (a : F64), (∀ y, a = fin y → Rep y) → ∀ y, l.foldl add a = fin y → Rep y := by
    intro l
    induction l with
    | nil => intro a ha y hy; exact ha y hy
    | cons b l ih =>
      intro a _ y hy
      refine ih (add a b) (fun z hz => ?_) y hy
      cases a with
      | nan => cases hz
      | inf s =>
        cases b with
        | nan => cases hz
        | inf t =>
          change (if s = t then inf s else nan) = fin z at hz
          split at hz <;> cases hz
        | fin b => cases hz
      | fin a =>
        cases b with
        | nan => cases hz
        | inf t => cases hz
        | fin b =>
          change rnd _ = _ at hz
          unfold rnd at hz
          split at hz
          · cases hz
          · cases hz
            exact rep_round _
  exact key _ _ (fun y hy => by cases hy; exact rep_zero) F h

/-- C129: the soft-margin objective, the objective of CERLPBoost, logged for the vote that CERLPBoost returns: whenever a run in `f64` returns, evaluating the objective with the same `ν` returns
a number; and if the run returned before the limit of the iterations and the learner finds an edge of at least `ρ` for all weights that are almost a distribution capped at `1/ν`, it is at least
`ρ - tolerance - 11·10⁻⁵`. -/
theorem cerlp_f64_objective [BEq H] (L : Libm) (other : FWType → Nat → List F64 → List H → Nat → List F64 → Except Panic (List F64))
    {S : Examples X ℝ} (hS : GoodSample S) {s : CERLPBoostF H} {h ν : ℝ} (hp : CappedParams S s h ν) {wl : WeakLearner F64 H}
    (hwl : ∀ it d, NearCapped ν S.length d → ∀ e ∈ S, ∃ c : ℝ, conf (wl it d) e.1 = fin c ∧ |c| ≤ 1)
    {fuel : ℕ} {f : WeightedMajority F64 H} {qs : List (List F64)} (hrun : (CERLPBoostF.booster L other S).run wl fuel s = some (.ok (f, qs))) {nFeature : ℕ} (hf : 0 < nFeature) :
    ∃ v : ℝ, softMarginEvalF (fin ν) nFeature S f = .ok (fin v) ∧
      ∀ ρ : ℝ, (∀ it d, NearCapped ν S.length d → ρ ≤ exactEdge S d (wl it d)) → (qs.length : ℝ) < 8 * Real.log (S.length / ν) / h ^ 2 - 1 / 1000 → ρ - 2 * h - 11 / 10 ^ 5 ≤ v := by
  have hconf := cerlp_f64_confidence L other hS hp hwl hrun
  have hc : FiniteConf S f := by
    intro e he
    obtain ⟨F, F1, F2⟩ := hconf e he
    exact ⟨F, F1, F2.trans (by norm_num), vote_double F1⟩
  have hlen : (2 : ℝ) ≤ S.length := by exact_mod_cast hS.two
  obtain ⟨v, V, v1, v2, v3⟩ := softMargin_f64 (h := f) (by rintro rfl; have := hS.two; simp at this) hS.labels hS.few hf hp.one_le (by have := hp.le; linarith) hc
  refine ⟨v, v1, fun ρ hedge hstop => ?_⟩
  obtain ⟨⟨d, d1, d2, d3⟩, -⟩ := v2
  rw [List.length_map] at d1
  have hm := (cerlp_f64_soft_margin L other hS hp hwl hedge hrun hstop).2 d d1 d2
  have e : (List.zipWith (fun x e => x * (e.2 * (F64.weightedConf f e.1).val)) d S).sum = V := by
    rw [d3, List.zipWith_map_right]
    rfl
  rw [e] at hm
  have v3 := abs_le.mp v3
  norm_num at hm v3 ⊢
  linarith

/-- The hypotheses are met: two rows and the confidences `1` and `-1`. -/
example : ∃ v V : ℝ, softMarginEvalF (fin (3 / 2)) 1 [(true, (1 : ℝ)), (false, 1)] true = .ok (fin v) ∧ IsSoftMargin (3 / 2) [1, -1] V ∧ |v - V| ≤ 1 / 10 ^ 9 := by
  have hc : FiniteConf [(true, (1 : ℝ)), (false, 1)] true := by
    intro e he
    simp only [List.mem_cons, List.not_mem_nil, or_false] at he
    rcases he with rfl | rfl
    · exact ⟨1, by simp [conf], by norm_num, rep_one⟩
    · exact ⟨-1, by simp [conf], by norm_num, rep_neg rep_one⟩
  obtain ⟨v, V, h1, h2, h3⟩ := softMargin_f64 (by simp) (by intro e he; simp at he; rcases he with rfl | rfl <;> simp) (by simp) (nFeature := 1) one_pos (nu := 3 / 2) (by norm_num) (by norm_num) hc
  refine ⟨v, V, h1, ?_, h3⟩
  simpa [conf, val] using h2

/-- A NaN: the objective panics. -/
example : softMarginEvalF (fin 1) 1 [((0 : ℕ), (1 : ℝ)), (1, -1)] (Fn.mk fun n : ℕ => if n = 0 then fin 1 else nan) = .error .unwrapNone :=
  softMargin_f64_nan_panics (by simp) one_pos le_rfl (by simp) (e := (1, -1)) (by simp) (by simp [conf])

/-- The hard margin of the confidences `1` and `-1` is `-1`. -/
example : hardMarginEvalF 1 [(true, (1 : ℝ)), (false, 1)] true = .ok (fin (-1)) := by
  have hc : FiniteConf [(true, (1 : ℝ)), (false, 1)] true := by
    intro e he
    simp only [List.mem_cons, List.not_mem_nil, or_false] at he
    rcases he with rfl | rfl
    · exact ⟨1, by simp [conf], by norm_num, rep_one⟩
    · exact ⟨-1, by simp [conf], by norm_num, rep_neg rep_one⟩
  obtain ⟨v, h1, h2, h3⟩ := hardMargin_f64 (S := [(true, (1 : ℝ)), (false, 1)]) (by simp) (by intro e he; simp at he; rcases he with rfl | rfl <;> simp) (nFeature := 1) one_pos hc
  rw [h1]
  have h4 := h3 (false, 1) (by simp)
  simp [conf, val] at h2 h4
  rcases h2 with h | h
  · rw [h] at h4; norm_num at h4
  · rw [h]

/-- The soft margin of the vote that CERLPBoost with `ν = 3/2` returns on the pair of C126 is a number. -/
example (other) : ∃ f qs, (booster exLibm other exCerlpPair).run (fun _ _ => true) (10 ^ 8) exCerlpCap = some (.ok (f, qs)) ∧
    ∃ v : ℝ, softMarginEvalF (fin (3 / 2)) 1 exCerlpPair f = .ok (fin v) ∧ 1 / 2 ≤ v := by
  obtain ⟨f, qs, h1, h2, -⟩ := exCerlpCap_run other
  obtain ⟨-, ht⟩ := cerlp_init_good (H := Bool) exLibm exCerlpPair
  have hlim : 1000 ≤ 8 * Real.log (exCerlpPair.length / (3 / 2)) / F64.round (5 / 1000) ^ 2 := by
    have h3 := exCerlpCap_params.lo
    rw [le_div_iff₀ (by positivity)]
    have h5 : ((exCerlpPair.length : ℕ) : ℝ) / (3 / 2) = 4 / 3 := by norm_num [exCerlpPair]
    rw [h5]
    have h6 := Real.one_sub_inv_le_log_of_pos (show (0 : ℝ) < 4 / 3 by norm_num)
    norm_num at h6
    nlinarith
  obtain ⟨v, v1, v2⟩ := cerlp_f64_objective exLibm other exCerlpPair_good exCerlpCap_params (fun _ _ _ e _ => ⟨if e.1 = true then 1 else -1, rfl, by split <;> simp⟩) h1 (nFeature := 1) one_pos
  refine ⟨f, qs, h1, v, v1, ?_⟩
  have := v2 (999 / 1000) (fun _ d hd => exCerlpCap_edge d hd) (by rw [h2]; push_cast; linarith)
  norm_num at this ht ⊢
  linarith

example (L : Libm) : ∃ v : ℝ, expLossEvalF L 1 [(true, (1 : ℝ)), (false, 1)] true = .ok (fin v) ∧ 1 / 2 ≤ v := by
  classical
  obtain ⟨v, h1, -, h3⟩ := expLoss_f64 L (S := [(true, (1 : ℝ)), (false, 1)]) (by simp) (by intro e he; simp at he; rcases he with rfl | rfl <;> simp) (by simp) (nFeature := 1) one_pos true
  refine ⟨v, h1, le_trans (le_of_eq ?_) h3⟩
  have hn : ¬ (0 : ℝ) ≤ -1 := by norm_num
  simp [wrongRows, predictOf, conf, Le, hn]
  norm_num

end Miniboosts.Props
