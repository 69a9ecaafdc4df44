import Verif.Lemmas.Gamma

/-! # The programs with a `γ` column have solutions -/

namespace Miniboosts

open LP

/-- First-order conditions of a separable quadratic over capped distributions. -/
theorem kkt (n : Nat) (c : ℝ) (l a D : Nat → ℝ) (hD0 : ∀ i, i < n → 0 ≤ D i) (hDc : ∀ i, i < n → D i ≤ c)
    (hsum : ∑ i ∈ Finset.range n, D i = 1) (ha : ∀ i, i < n → 0 ≤ a i)
    (hmin : ∀ D' : Nat → ℝ, (∀ i, i < n → 0 ≤ D' i) → (∀ i, i < n → D' i ≤ c) → ∑ i ∈ Finset.range n, D' i = 1 →
      ∑ i ∈ Finset.range n, (l i * D i + a i * D i ^ 2 / 2) ≤ ∑ i ∈ Finset.range n, (l i * D' i + a i * D' i ^ 2 / 2)) :
    ∃ lam, ∀ k, k < n → (0 < D k → l k + a k * D k ≤ lam) ∧ (D k < c → lam ≤ l k + a k * D k) := by
  have key : ∀ i, i < n → ∀ j, j < n → 0 < D i → D j < c → l i + a i * D i ≤ l j + a j * D j := by
    intro i hi j hj hDi hDj
    by_cases hij : i = j
    · subst hij; exact le_rfl
    by_contra hlt
    push_neg at hlt
    set A := a i + a j + 1 with hA
    have hApos : 0 < A := by have := ha i hi; have := ha j hj; rw [hA]; linarith
    set g := (l i + a i * D i) - (l j + a j * D j) with hg
    have hgpos : 0 < g := by rw [hg]; linarith
    set t := min (min (D i) (c - D j)) (g / A) with ht
    have htpos : 0 < t := by
      rw [ht]; exact lt_min (lt_min hDi (by linarith)) (div_pos hgpos hApos)
    have ht1 : t ≤ D i := le_trans (min_le_left _ _) (min_le_left _ _)
    have ht2 : t ≤ c - D j := le_trans (min_le_left _ _) (min_le_right _ _)
    have ht3 : t * A ≤ g := by
      have : t ≤ g / A := min_le_right _ _
      rwa [le_div_iff₀ hApos] at this
    let D' : Nat → ℝ := fun k => D k + (if k = j then t else 0) - (if k = i then t else 0)
    have hi' : i ∈ Finset.range n := Finset.mem_range.2 hi
    have hj' : j ∈ Finset.range n := Finset.mem_range.2 hj
    have h := hmin D' ?_ ?_ ?_
    · have hdiff : ∀ k ∈ Finset.range n, (l k * D' k + a k * D' k ^ 2 / 2) = (l k * D k + a k * D k ^ 2 / 2) +
          ((if k = j then (l k + a k * D k) * t + a k * t ^ 2 / 2 else 0) +
            (if k = i then -((l k + a k * D k) * t) + a k * t ^ 2 / 2 else 0)) := by
        intro k _
        simp only [D']
        by_cases e1 : k = j
        · by_cases e2 : k = i
          · exact absurd (e2.symm.trans e1) hij
          · rw [if_pos e1, if_neg e2, if_pos e1, if_neg e2]; ring
        · by_cases e2 : k = i
          · rw [if_neg e1, if_pos e2, if_neg e1, if_pos e2]; ring
          · rw [if_neg e1, if_neg e2, if_neg e1, if_neg e2]; ring
      have hsplit : ∑ k ∈ Finset.range n, ((if k = j then (l k + a k * D k) * t + a k * t ^ 2 / 2 else 0) +
            (if k = i then -((l k + a k * D k) * t) + a k * t ^ 2 / 2 else 0)) =
          ((l j + a j * D j) * t + a j * t ^ 2 / 2) + (-((l i + a i * D i) * t) + a i * t ^ 2 / 2) := by
        rw [Finset.sum_add_distrib, Finset.sum_ite_eq' _ j, Finset.sum_ite_eq' _ i, if_pos hi', if_pos hj']
      rw [Finset.sum_congr rfl hdiff, Finset.sum_add_distrib (s := Finset.range n)
        (f := fun k => l k * D k + a k * D k ^ 2 / 2), hsplit] at h
      have h2 : 0 ≤ t * (-g + (a i + a j) * t / 2) := by rw [hg]; linarith
      have h3 : 0 ≤ -g + (a i + a j) * t / 2 := nonneg_of_mul_nonneg_right h2 htpos
      have h4 : (a i + a j) * t ≤ g := by
        have : (a i + a j) * t = t * A - t := by rw [hA]; ring
        linarith
      linarith
    · intro k hk
      simp only [D']
      have := hD0 k hk
      by_cases e2 : k = i
      · rw [if_pos e2, if_neg (by rw [e2]; exact hij), e2]; linarith
      · rw [if_neg e2]
        split <;> linarith
    · intro k hk
      simp only [D']
      have := hDc k hk
      by_cases e1 : k = j
      · rw [if_pos e1, if_neg (by rw [e1]; exact fun h => hij h.symm), e1]; linarith
      · rw [if_neg e1]
        split <;> linarith
    · simp only [D']
      rw [Finset.sum_sub_distrib, Finset.sum_add_distrib, Finset.sum_ite_eq' _ j, Finset.sum_ite_eq' _ i, if_pos hi',
        if_pos hj', hsum]; ring
  obtain ⟨i₀, hi₀, hpos⟩ : ∃ i ∈ Finset.range n, 0 < D i := by
    apply Finset.exists_lt_of_sum_lt (f := fun _ => (0 : ℝ))
    rw [hsum]; simp
  obtain ⟨i, hi, hmax⟩ := Finset.exists_max_image ((Finset.range n).filter fun i => 0 < D i) (fun i => l i + a i * D i)
    ⟨i₀, Finset.mem_filter.2 ⟨hi₀, hpos⟩⟩
  rw [Finset.mem_filter, Finset.mem_range] at hi
  refine ⟨l i + a i * D i, fun k hk => ⟨fun h => ?_, fun h => key i hi.1 k hk hi.2 h⟩⟩
  exact hmax k (Finset.mem_filter.2 ⟨Finset.mem_range.2 hk, h⟩)

variable {H X : Type*} [Classifier H X ℝ]

theorem penalty_range (φ : Nat → ℝ → ℝ) (d : List ℝ) :
    penalty φ d = ∑ i ∈ Finset.range d.length, φ i (d.getD i 0) := by
  have h := penalty_ofFn φ (fun i : Fin d.length => d.get i)
  rw [List.ofFn_get] at h
  rw [h, Finset.sum_range]
  apply Finset.sum_congr rfl
  intro i _
  simp [List.getD_eq_getElem?_getD]

theorem edge_fun_sum (S : Examples X ℝ) (d : List ℝ) (g : X → ℝ) (hd : d.length = S.length) :
    Spec.edge S d g = ∑ i ∈ Finset.range S.length, (S.map fun e => e.2 * g e.1).getD i 0 * d.getD i 0 := by
  have h := zipWith_mul_sum (S.map fun e => e.2 * g e.1) d
  rw [hd] at h
  rw [← h, List.zipWith_map_left]
  unfold Spec.edge
  rw [show List.zipWith (fun (e : X × ℝ) p => e.2 * g e.1 * p) S d =
    (List.zip S d).map (fun p => p.1.2 * g p.1.1 * p.2) from
      (List.map_zip_eq_zipWith (f := fun p : (X × ℝ) × ℝ => p.1.2 * g p.1.1 * p.2)).symm]
  congr 1
  apply List.map_congr_left
  intro p _
  ring

namespace IsGamma

variable {p : Program ℝ} {S : Examples X ℝ} {hs : List H} {cc ci : ℝ} {b a : Nat → ℝ}

/-- There is an optimal pair, provided there is an example, a hypothesis, and a capped distribution. -/
theorem exists_optimal (hp : IsGamma p S hs cc ci b a) (hS : S ≠ []) (hhs : hs ≠ [])
    (ha : ∀ i, i < S.length → 0 ≤ a i) (hcc : 0 < cc) (hci : cc ≤ (S.length : ℝ) * ci) : ∃ s, p.Optimal s := by
  have hfs : (hs.map fun h => (conf h : X → ℝ)) ≠ [] := by simpa using hhs
  have hcap : 1 ≤ (S.length : ℝ) * (ci / cc) := by
    rw [← mul_div_assoc, le_div_iff₀ hcc]; linarith
  have hconv : ∀ i, ConvexOn ℝ (Set.Icc (0:ℝ) 1)
      (fun t => if i < S.length then b i * t + a i * t ^ 2 / 2 else 0) := by
    intro i
    by_cases hi : i < S.length
    · simp only [if_pos hi]
      refine ⟨convex_Icc 0 1, ?_⟩
      intro x _ y _ u v hu hv huv
      simp only [smul_eq_mul]
      have : v = 1 - u := by linarith
      subst this
      have h1 : 0 ≤ a i * (u * (1 - u) * (x - y) ^ 2) :=
        mul_nonneg (ha i hi) (mul_nonneg (mul_nonneg hu hv) (sq_nonneg _))
      nlinarith
    · simp only [if_neg hi]
      exact convexOn_const 0 (convex_Icc 0 1)
  obtain ⟨d, w, γ, hd, hdp, hdc, hwl, hwp, he, hmin⟩ := saddle_list S hS (hs.map fun h => (conf h : X → ℝ)) hfs
    (ci / cc) hcap (fun i t => if i < S.length then b i * t + a i * t ^ 2 / 2 else 0) hconv
    (by
      intro i
      by_cases hi : i < S.length
      · simp only [if_pos hi]; fun_prop
      · simp only [if_neg hi]; exact continuousOn_const)
  rw [List.length_map] at hwl
  have hvote : (fun x => (List.zipWith (fun w f => w * f x) w (hs.map fun h => (conf h : X → ℝ))).sum) =
      fun x => Spec.vote conf (List.zip w hs) x := by
    funext x
    unfold Spec.vote
    rw [List.zipWith_map_right, show List.zipWith (fun (w : ℝ) (h : H) => w * conf h x) w hs =
      (List.zip w hs).map (fun p => p.1 * conf p.2 x) from
        (List.map_zip_eq_zipWith (f := fun p : ℝ × H => p.1 * conf p.2 x)).symm]
  have hpen : ∀ d : List ℝ, d.length = S.length →
      penalty (fun i t => if i < S.length then b i * t + a i * t ^ 2 / 2 else 0) d = quadPen S.length b a d := by
    intro d hd
    rw [penalty_range, hd]
    unfold quadPen
    exact Finset.sum_congr rfl fun i hi => by rw [if_pos (Finset.mem_range.1 hi)]
  rw [hvote] at hmin
  set V : X → ℝ := fun x => Spec.vote conf (List.zip w hs) x with hV
  set l : Nat → ℝ := fun i => (S.map fun e => e.2 * V e.1).getD i 0 with hl
  have hF : ∀ d' : List ℝ, d'.length = S.length → Spec.edge S d' V + quadPen S.length b a d' =
      ∑ i ∈ Finset.range S.length, ((l i + b i) * d'.getD i 0 + a i * d'.getD i 0 ^ 2 / 2) := by
    intro d' hd'
    rw [edge_fun_sum S d' V hd']
    unfold quadPen
    rw [← Finset.sum_add_distrib]
    exact Finset.sum_congr rfl fun i _ => by rw [hl]; ring
  have hedge : ∀ h ∈ hs, Spec.edge S d (conf h) ≤ γ - quadPen S.length b a d := by
    intro h hh
    have := he (conf h) (List.mem_map_of_mem hh)
    rw [hpen d hd] at this; linarith
  have hval : Spec.edge S d V + quadPen S.length b a d = γ := by
    apply le_antisymm
    · have := vote_edge_le S hs d w hwl hwp _ hedge
      rw [← hV] at this; linarith
    · have := hmin d hd hdp hdc
      rwa [hpen d hd] at this
  obtain ⟨lam, hlam⟩ := kkt S.length (ci / cc) (fun i => l i + b i) a (fun i => d.getD i 0)
    (fun i hi => hdp.1 _ (getD_mem d i (by omega))) (fun i hi => hdc _ (getD_mem d i (by omega)))
    (by rw [← hdp.2, sum_getD d, hd]) ha
    (by
      intro D' h0 hc hs'
      have hl' : ((List.range S.length).map D').length = S.length := by simp
      have hget : ∀ i, i < S.length → ((List.range S.length).map D').getD i 0 = D' i := by
        intro i hi; simp [List.getD_eq_getElem?_getD, hi]
      have := hmin ((List.range S.length).map D') hl' ⟨?_, ?_⟩ ?_
      · rw [hpen _ hl', hF _ hl', ← hval, hF d hd] at this
        refine le_trans this (le_of_eq ?_)
        exact Finset.sum_congr rfl fun i hi => by rw [hget i (Finset.mem_range.1 hi)]
      · intro q hq
        simp only [List.mem_map, List.mem_range] at hq
        obtain ⟨i, hi, rfl⟩ := hq; exact h0 i hi
      · rw [sum_range_list, hs']
      · intro q hq
        simp only [List.mem_map, List.mem_range] at hq
        obtain ⟨i, hi, rfl⟩ := hq; exact hc i hi)
  set g : Nat → ℝ := fun i => l i + b i + a i * d.getD i 0 with hg
  set z : List ℝ := (-lam) :: ((List.range S.length).map (fun i => max (g i - lam) 0) ++
    ((List.range S.length).map (fun i => max (lam - g i) 0 / cc) ++ w)) with hz
  have z0 : z.getD 0 0 = -lam := rfl
  have z1 : ∀ i, i < S.length → z.getD (1 + i) 0 = max (g i - lam) 0 := by
    intro i hi
    rw [hz, Nat.add_comm, List.getD_cons_succ, List.getD_append _ _ _ _ (by simpa using hi)]
    simp [List.getD_eq_getElem?_getD, hi]
  have z2 : ∀ i, i < S.length → z.getD (1 + S.length + i) 0 = max (lam - g i) 0 / cc := by
    intro i hi
    rw [hz, show 1 + S.length + i = (S.length + i) + 1 by omega, List.getD_cons_succ,
      List.getD_append_right _ _ _ _ (by simp), List.getD_append _ _ _ _ (by simp; omega)]
    simp [List.getD_eq_getElem?_getD, hi]
  have z3 : ∀ k, z.getD (1 + 2 * S.length + k) 0 = w.getD k 0 := by
    intro k
    rw [hz, show 1 + 2 * S.length + k = (S.length + (S.length + k)) + 1 by omega, List.getD_cons_succ,
      List.getD_append_right _ _ _ _ (by simp), List.getD_append_right _ _ _ _ (by simp)]
    simp
  have hzl : z.length = 1 + 2 * S.length + hs.length := by simp [hz, hwl]; omega
  have hdrop : z.drop (1 + 2 * S.length) = w := by
    rw [hz, Nat.add_comm, List.drop_succ_cons, ← List.append_assoc, List.drop_append_of_le_length (by simp; omega),
      List.drop_eq_nil_of_le (by simp; omega), List.nil_append]
  set γ₀ := γ - quadPen S.length b a d with hγ₀
  refine ⟨{ x := γ₀ :: d, z := z, objVal := γ, status := .solved }, ?_, ?_, ?_, ?_, ?_, ?_⟩
  · rw [hp.feasible_iff]
    refine ⟨hd, hdp, fun q hq => ?_, hedge⟩
    have := hdc q hq
    rw [le_div_iff₀ hcc] at this; linarith
  · rw [hp.nRows]; exact hzl
  · intro i hi
    simp only [hp.isEq] at hi ⊢
    by_cases c0 : i = 0
    · rw [if_pos c0] at hi; simp at hi
    · rw [if_neg c0] at hi
      by_cases c1 : i < 1 + 2 * S.length + hs.length
      · by_cases c2 : i < 1 + S.length
        · obtain ⟨r, rfl⟩ : ∃ r, i = 1 + r := ⟨i - 1, by omega⟩
          rw [z1 r (by omega)]; exact le_max_right _ _
        · by_cases c3 : i < 1 + 2 * S.length
          · obtain ⟨r, rfl⟩ : ∃ r, i = 1 + S.length + r := ⟨i - (1 + S.length), by omega⟩
            rw [z2 r (by omega)]; exact div_nonneg (le_max_right _ _) hcc.le
          · obtain ⟨k, rfl⟩ : ∃ k, i = 1 + 2 * S.length + k := ⟨i - (1 + 2 * S.length), by omega⟩
            rw [z3 k]; exact hwp.1 _ (getD_mem w k (by omega))
      · rw [if_neg c1] at hi; simp at hi
  · intro j hj
    rw [hp.nCols] at hj
    simp only []
    obtain ⟨t0, t1⟩ := gamma_tmulVec S hs cc z
    by_cases c0 : j = 0
    · subst c0
      rw [hp.p0, hp.q0, hp.A, t0, Finset.sum_congr rfl fun k _ => z3 k, ← hwl, ← sum_getD, hwp.2]; ring
    · obtain ⟨i, rfl⟩ : ∃ i, j = 1 + i := ⟨j - 1, by omega⟩
      have hi : i < S.length := by omega
      rw [hp.p1 _ i hi, hp.q1 i hi, hp.A, t1 i hi, z0, z1 i hi, z2 i hi, Finset.sum_congr rfl fun k _ => by rw [z3 k],
        ← vote_sum S w hs hwl i S[i] (by simp [hi]), Nat.add_comm 1 i, List.getD_cons_succ,
        mul_div_cancel₀ _ hcc.ne']
      have hli : S[i].2 * Spec.vote conf (List.zip w hs) S[i].1 = l i := by
        simp [hl, hV, List.getD_eq_getElem?_getD, hi]
      rw [hli]
      have hgi : g i = l i + b i + a i * d.getD i 0 := rfl
      rcases le_total (g i) lam with h | h
      · rw [max_eq_right (by linarith), max_eq_left (by linarith)]; linarith
      · rw [max_eq_left (by linarith), max_eq_right (by linarith)]; linarith
  · rw [sum_range_list]
    simp only []
    rw [hp.slack_sum z γ₀ d hd w hdrop.symm hwl hwp.2, hdp.2]
    have hA : ∑ i ∈ Finset.range S.length, z.getD (1 + i) 0 * d.getD i 0 = 0 := by
      apply Finset.sum_eq_zero
      intro i hi
      have hi' := Finset.mem_range.1 hi
      rw [z1 i hi']
      rcases (hdp.1 _ (getD_mem d i (by omega))).eq_or_lt with h | h
      · rw [← h, mul_zero]
      · have := (hlam i hi').1 h
        rw [max_eq_right (by have : g i ≤ lam := this
                             linarith), zero_mul]
    have hB : ∑ i ∈ Finset.range S.length, z.getD (1 + S.length + i) 0 * (ci - cc * d.getD i 0) = 0 := by
      apply Finset.sum_eq_zero
      intro i hi
      have hi' := Finset.mem_range.1 hi
      rw [z2 i hi']
      rcases (hdc _ (getD_mem d i (by omega))).eq_or_lt with h | h
      · rw [h, mul_div_cancel₀ _ hcc.ne', sub_self, mul_zero]
      · have := (hlam i hi').2 h
        rw [max_eq_right (by have : lam ≤ g i := this
                             linarith), zero_div, zero_mul]
    rw [hA, hB, ← hV]
    linarith
  · simp only []
    rw [hp.objective_eq γ₀ d hd]; linarith

end IsGamma

end Miniboosts
