import Verif.Lemmas.FloatMedian
import Verif.Props.FloatGBM
import Verif.Spec.FloatGBM

/-! # The line search of the absolute loss in `f64` is almost optimal (C123) -/

namespace Miniboosts.Props

open Miniboosts F64 Spec

open Classical in
/-- The pairs of weight and quotient, as numbers. -/
noncomputable def l1Pairs (ys ps : List ℝ) : List (ℝ × ℝ) :=
  (List.zip ys ps).filterMap fun rp => if rp.2 = 0 then none else some (|rp.2|, F64.round (rp.1 / rp.2))

theorem l1Items_pairs : ∀ (ys ps : List ℝ), (∀ y ∈ ys, |y| ≤ 10 ^ 10) → (∀ p ∈ ps, p = 0 ∨ 1 / 10 ^ 10 ≤ |p|) →
    l1Items ys (ps.map fin) = (l1Pairs ys ps).map toFin := by
  intro ys
  induction ys with
  | nil => intro ps _ _; rfl
  | cons y ys ih => intro ps hy hp; cases ps with
    | nil => rfl
    | cons p ps =>
      have h := ih ps (fun y hy' => hy y (List.mem_cons_of_mem _ hy')) fun p hp' => hp p (List.mem_cons_of_mem _ hp')
      unfold l1Items l1Pairs at h ⊢
      rw [List.map_cons, List.zip_cons_cons, List.zip_cons_cons, List.filterMap_cons, List.filterMap_cons]
      by_cases h0 : p = 0
      · subst h0
        simpa using h
      · have hne : fin p ≠ fin 0 := fun e => h0 (F64.fin.inj e)
        simp only [if_neg hne, if_neg h0, List.map_cons]
        rw [h]
        congr 1
        have hp0 : 1 / 10 ^ 10 ≤ |p| := (hp p (by simp)).resolve_left h0
        have hpp : 0 < |p| := abs_pos.mpr h0
        have hq : |y / p| ≤ 10 ^ 20 := by
          rw [abs_div, div_le_iff₀ hpp]
          have := hy y (by simp)
          nlinarith
        refine Prod.ext rfl ?_
        change (if p = 0 then _ else rnd (y / p)) = _
        rw [if_neg h0, rnd_small hq]
        rfl

theorem l1Pairs_mem {ys ps : List ℝ} {q : ℝ × ℝ} (h : q ∈ l1Pairs ys ps) :
    ∃ y ∈ ys, ∃ p ∈ ps, p ≠ 0 ∧ q = (|p|, F64.round (y / p)) := by
  obtain ⟨⟨y, p⟩, h1, h2⟩ := List.mem_filterMap.mp h
  have hz := List.of_mem_zip h1
  by_cases hp : p = 0
  · simp [hp] at h2
  · simp only [if_neg hp, Option.some.injEq] at h2
    exact ⟨y, hz.1, p, hz.2, hp, h2.symm⟩

theorem double_abs {x : ℝ} (h : Double x) : F64.Rep |x| := by
  obtain ⟨k, j, hk, hj, rfl⟩ := h
  refine ⟨|k|, j, by rwa [abs_abs], hj, ?_⟩
  rw [abs_mul, abs_of_pos (show (0 : ℝ) < 2 ^ j by positivity), Int.cast_abs]

/-- The loss and the deviation of the rounded quotients. -/
theorem absLoss_pairs (t : ℝ) : ∀ (ys ps : List ℝ), ys.length = ps.length → (∀ y ∈ ys, |y| ≤ 10 ^ 10) → (∀ p ∈ ps, |p| ≤ 10 ^ 10) →
    ∃ Z, 0 ≤ Z ∧ Z = (List.zipWith (fun y p => if p = 0 then |y| else 0) ys ps).sum ∧
      |absLossAt ys ps t - Z - ((l1Pairs ys ps).map fun q => q.1 * |q.2 - t|).sum| ≤ u * (ys.map (|·|)).sum + ys.length / 10 ^ 45 := by
  intro ys
  induction ys with
  | nil => intro ps _ _ _; exact ⟨0, le_rfl, by simp, by simp [absLossAt, l1Pairs]⟩
  | cons y ys ih => intro ps hl hy hp; cases ps with
    | nil => simp at hl
    | cons p ps =>
      obtain ⟨Z, hZ0, hZ, h⟩ := ih ps (by simpa using hl) (fun y hy' => hy y (List.mem_cons_of_mem _ hy')) fun p hp' => hp p (List.mem_cons_of_mem _ hp')
      have hu := u_pos
      have hus := u_small
      by_cases h0 : p = 0
      · refine ⟨|y| + Z, by positivity, by rw [hZ]; simp [h0], ?_⟩
        have e : l1Pairs (y :: ys) (p :: ps) = l1Pairs ys ps := by simp [l1Pairs, h0]
        rw [e]
        have e2 : absLossAt (y :: ys) (p :: ps) t = |y| + absLossAt ys ps t := by simp [absLossAt, h0]
        rw [e2, List.map_cons, List.sum_cons, List.length_cons]
        push_cast
        have hy0 : 0 ≤ u * |y| := by positivity
        have : |y| + absLossAt ys ps t - (|y| + Z) - ((l1Pairs ys ps).map fun q => q.1 * |q.2 - t|).sum =
          absLossAt ys ps t - Z - ((l1Pairs ys ps).map fun q => q.1 * |q.2 - t|).sum := by ring
        rw [this]
        refine h.trans ?_
        rw [add_div]
        have : (0 : ℝ) ≤ 1 / 10 ^ 45 := by positivity
        linarith
      · refine ⟨Z, hZ0, by rw [hZ]; simp [h0], ?_⟩
        have hpp : 0 < |p| := abs_pos.mpr h0
        have e : l1Pairs (y :: ys) (p :: ps) = (|p|, F64.round (y / p)) :: l1Pairs ys ps := by simp [l1Pairs, h0]
        have e2 : absLossAt (y :: ys) (p :: ps) t = |y - t * p| + absLossAt ys ps t := by simp [absLossAt]
        rw [e, e2, List.map_cons, List.sum_cons, List.map_cons, List.sum_cons, List.length_cons]
        have e3 : |y - t * p| = |p| * |y / p - t| := by
          rw [← abs_mul]
          congr 1
          field_simp
        have herr := round_err (y / p)
        have h5 : abs (|y / p - t| - |F64.round (y / p) - t|) ≤ |F64.round (y / p) - y / p| := by
          refine (abs_abs_sub_abs_le _ _).trans (le_of_eq ?_)
          rw [abs_sub_comm]
          congr 1
          ring
        have h6 : abs (|p| * |y / p - t| - |p| * |F64.round (y / p) - t|) ≤ u * |y| + 1 / 10 ^ 45 := by
          rw [← mul_sub, abs_mul, abs_abs]
          have h7 : |p| * abs (|y / p - t| - |F64.round (y / p) - t|) ≤ |p| * (u * |y / p| + eta) := mul_le_mul_of_nonneg_left (h5.trans herr) hpp.le
          have h8 : |p| * (u * |y / p| + eta) = u * |y| + |p| * eta := by
            rw [abs_div]
            field_simp
          have h9 : |p| * eta ≤ 1 / 10 ^ 45 := by
            have h1 := hp p (by simp)
            have h2 := eta_tiny
            have h3 := eta_pos
            calc |p| * eta ≤ 10 ^ 10 * (1 / 10 ^ 60) := mul_le_mul h1 h2 h3.le (by positivity)
              _ ≤ _ := by norm_num
          linarith
        rw [e3]
        push_cast
        rw [abs_le] at h h6 ⊢
        rw [add_div]
        constructor
        · linarith [h.1, h6.1]
        · linarith [h.2, h6.2]

/-- How far two coefficients are apart. -/
theorem absLoss_gap (c t : ℝ) : ∀ (ys ps : List ℝ), ys.length = ps.length → ((l1Pairs ys ps).map Prod.fst).sum * |c - t| ≤ absLossAt ys ps c + absLossAt ys ps t := by
  intro ys
  induction ys with
  | nil => intro ps _; simp [absLossAt, l1Pairs]
  | cons y ys ih => intro ps hl; cases ps with
    | nil => simp at hl
    | cons p ps =>
      have h := ih ps (by simpa using hl)
      have e2 : ∀ t, absLossAt (y :: ys) (p :: ps) t = |y - t * p| + absLossAt ys ps t := by intro t; simp [absLossAt]
      rw [e2, e2]
      by_cases h0 : p = 0
      · have e : l1Pairs (y :: ys) (p :: ps) = l1Pairs ys ps := by simp [l1Pairs, h0]
        rw [e]
        have := abs_nonneg (y - c * p)
        have := abs_nonneg (y - t * p)
        linarith
      · have e : l1Pairs (y :: ys) (p :: ps) = (|p|, F64.round (y / p)) :: l1Pairs ys ps := by simp [l1Pairs, h0]
        rw [e, List.map_cons, List.sum_cons, add_mul]
        have h1 : |p| * |c - t| ≤ |y - c * p| + |y - t * p| := by
          rw [← abs_mul]
          have : p * (c - t) = (y - t * p) - (y - c * p) := by ring
          rw [this]
          have := abs_sub (y - t * p) (y - c * p)
          linarith
        linarith

/-- C123: for targets of at most `10¹⁰` and outputs that are zero or between `10⁻¹⁰` and `10¹⁰`, at most `10⁵` of them, the line search of the absolute loss in
`f64` returns a finite coefficient whose loss is, up to a relative error of `10⁻⁸` and the rounding of the targets, the smallest possible. -/
theorem line_search_f64_l1_near_best (ys ps : List ℝ) (hl : ys.length = ps.length) (hN : ps.length ≤ 10 ^ 5) (hy : ∀ y ∈ ys, |y| ≤ 10 ^ 10)
    (hp : ∀ p ∈ ps, Double p ∧ (p = 0 ∨ 1 / 10 ^ 10 ≤ |p|) ∧ |p| ≤ 10 ^ 10) (hne : ∃ p ∈ ps, p ≠ 0) :
    ∃ c : ℝ, GBMLoss.L1.bestCoefficientF ys (ps.map fin) = .ok (fin c) ∧
      ∀ t, absLossAt ys ps c ≤ (1 + 1 / 10 ^ 7) * absLossAt ys ps t + 1 / 10 ^ 15 * (ys.map (|·|)).sum + 1 / 10 ^ 38 := by
  have e0 : GBMLoss.L1.bestCoefficientF ys (ps.map fin) = GBMLoss.weightedMedianF (l1Items ys (ps.map fin)) := rfl
  rw [l1Items_pairs ys ps hy fun p h => (hp p h).2.1] at e0
  have hlen : (l1Pairs ys ps).length ≤ 10 ^ 5 := by
    have := List.length_filterMap_le (fun rp : ℝ × ℝ => if rp.2 = 0 then none else some (|rp.2|, F64.round (rp.1 / rp.2))) (List.zip ys ps)
    have h2 : (List.zip ys ps).length ≤ ps.length := by rw [List.length_zip]; omega
    unfold l1Pairs
    omega
  have hne' : l1Pairs ys ps ≠ [] := by
    obtain ⟨p, hp1, hp2⟩ := hne
    obtain ⟨i, hi, rfl⟩ := List.mem_iff_getElem.mp hp1
    refine List.ne_nil_of_mem (a := (|ps[i]|, F64.round (ys[i] / ps[i]))) (List.mem_filterMap.mpr ⟨(ys[i]'(by omega), ps[i]), ?_, by simp [hp2]⟩)
    exact List.mem_iff_getElem.mpr ⟨i, by rw [List.length_zip]; omega, by simp⟩
  obtain ⟨c, -, hc, hopt⟩ := weightedMedianF_near (l1Pairs ys ps) hne' (by
    intro q hq
    obtain ⟨y, -, p, hp1, hp2, rfl⟩ := l1Pairs_mem hq
    obtain ⟨h1, h2, h3⟩ := hp p hp1
    exact ⟨double_abs h1, h2.resolve_left hp2, h3⟩) hlen
  refine ⟨c, by rw [e0, hc], fun t => ?_⟩
  obtain ⟨Z, -, hZ, h1⟩ := absLoss_pairs c ys ps hl hy fun p h => (hp p h).2.2
  obtain ⟨Z', -, hZ', h2⟩ := absLoss_pairs t ys ps hl hy fun p h => (hp p h).2.2
  have hZZ : Z' = Z := by rw [hZ, hZ']
  have h3 := absLoss_gap c t ys ps hl
  have h4 := hopt t
  have hys : 0 ≤ (ys.map (|·|)).sum := List.sum_nonneg (by intro x hx; obtain ⟨y, -, rfl⟩ := List.mem_map.mp hx; exact abs_nonneg y)
  have hlen' : (ys.length : ℝ) / 10 ^ 45 ≤ 1 / 10 ^ 40 := by
    have : (ys.length : ℝ) ≤ 10 ^ 5 := by rw [hl]; exact_mod_cast hN
    rw [div_le_div_iff₀ (by positivity) (by positivity)]
    nlinarith
  have hu := u_small
  have huy : u * (ys.map (|·|)).sum ≤ 1 / 9000000000000000 * (ys.map (|·|)).sum := mul_le_mul_of_nonneg_right hu hys
  have ht0 : 0 ≤ absLossAt ys ps t := by
    unfold absLossAt
    refine List.sum_nonneg ?_
    intro x hx
    obtain ⟨i, hi, rfl⟩ := List.mem_iff_getElem.mp hx
    simp
  rw [abs_le] at h1 h2
  have h5 : 5 / 10 ^ 9 * ((l1Pairs ys ps).map Prod.fst).sum * |c - t| ≤ 5 / 10 ^ 9 * (absLossAt ys ps c + absLossAt ys ps t) := by
    rw [mul_assoc]
    exact mul_le_mul_of_nonneg_left h3 (by positivity)
  have h6 : absLossAt ys ps c ≤ absLossAt ys ps t + 5 / 10 ^ 9 * (absLossAt ys ps c + absLossAt ys ps t) + 2 / 9000000000000000 * (ys.map (|·|)).sum + 2 / 10 ^ 40 := by
    linarith [h1.2, h2.1]
  have h7 : (1 - 5 / 10 ^ 9) * absLossAt ys ps c ≤ (1 + 5 / 10 ^ 9) * absLossAt ys ps t + 2 / 9000000000000000 * (ys.map (|·|)).sum + 2 / 10 ^ 40 := by
    linarith
  by_contra hcon
  rw [not_le] at hcon
  nlinarith

/-- Three targets and outputs. -/
example : ∃ c : ℝ, GBMLoss.L1.bestCoefficientF [1, 2, -7] ([1, 1, 0].map fin) = .ok (fin c) ∧
    ∀ t, absLossAt [1, 2, -7] [1, 1, 0] c ≤ (1 + 1 / 10 ^ 7) * absLossAt [1, 2, -7] [1, 1, 0] t + 1 / 10 ^ 15 * (([1, 2, -7] : List ℝ).map (|·|)).sum + 1 / 10 ^ 38 := by
  refine line_search_f64_l1_near_best [1, 2, -7] [1, 1, 0] rfl (by simp) ?_ ?_ ⟨1, by simp, one_ne_zero⟩
  · intro y hy
    simp only [List.mem_cons, List.not_mem_nil, or_false] at hy
    rcases hy with rfl | rfl | rfl <;> norm_num [abs_le]
  · intro p hp
    simp only [List.mem_cons, List.not_mem_nil, or_false] at hp
    rcases hp with rfl | rfl | rfl
    · exact ⟨⟨1, 0, by norm_num, by norm_num, by norm_num⟩, Or.inr (by norm_num), by norm_num⟩
    · exact ⟨⟨1, 0, by norm_num, by norm_num, by norm_num⟩, Or.inr (by norm_num), by norm_num⟩
    · exact ⟨⟨0, 0, by norm_num, by norm_num, by norm_num⟩, Or.inl rfl, by norm_num⟩

end Miniboosts.Props
