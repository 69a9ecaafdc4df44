import Verif.Lemmas.LPBoostOpt

/-! # The program LPBoost assembles has a solution -/

namespace Miniboosts

namespace LP

section

variable {K : Type*} [Field K] [LinearOrder K] [IsStrictOrderedRing K] {H X : Type*} [Classifier H X K]

theorem prob_le_one {d : List K} (hd : Spec.IsProb d) : ∀ p ∈ d, p ≤ 1 := by
  intro p hp
  have := single_le_sum_map d id (by simpa using hd.1) hp
  simp only [List.map_id_fun, id_eq] at this
  rw [hd.2] at this
  exact this

/-- The solution made of a certificate. -/
def pairSolution (S : Examples X K) (nu : K) (hs : List H) (d w : List K) (γ : K) : Solution K :=
  { x := γ :: (List.replicate S.length 0 ++ w)
    z := d ++ (γ :: (d.map (fun p => nu - p) ++ hs.map fun h => γ - Spec.edge S d (conf h)))
    objVal := -γ, status := .solved }

theorem optimal_of_pair (S : Examples X K) (nu : K) (hnu : 1 ≤ nu) (hs : List H) (d w : List K) (γ : K)
    (hp : Spec.HardMarginPair S hs d w γ) :
    (LPBoost.program S nu hs).Optimal (pairSolution S nu hs d w γ) := by
  obtain ⟨d1, d2, d3, d4, d5, d6⟩ := program_dims S nu hs
  obtain ⟨q1, q2, q3⟩ := q_getD S nu hs
  have hdl := hp.dlen
  set z := (pairSolution S nu hs d w γ).z with hz
  have z1 : ∀ i, i < S.length → z.getD i 0 = d.getD i 0 := by
    intro i hi
    simp only [hz, pairSolution]
    rw [List.getD_append _ _ _ _ (by omega)]
  have z2 : z.getD S.length 0 = γ := by
    simp only [hz, pairSolution]
    rw [List.getD_append_right _ _ _ _ (by omega), hdl, Nat.sub_self]; rfl
  have z3 : ∀ r, r < S.length → z.getD (S.length + 1 + r) 0 = nu - d.getD r 0 := by
    intro r hr
    simp only [hz, pairSolution]
    rw [List.getD_append_right _ _ _ _ (by omega), hdl, show S.length + 1 + r - S.length = r + 1 by omega,
      List.getD_cons_succ, List.getD_append _ _ _ _ (by simp; omega)]
    simp [List.getD_eq_getElem?_getD, hdl, hr]
  have z4 : ∀ k h, hs[k]? = some h → z.getD (2 * S.length + 1 + k) 0 = γ - Spec.edge S d (conf h) := by
    intro k h hk
    simp only [hz, pairSolution]
    rw [List.getD_append_right _ _ _ _ (by omega), hdl,
      show 2 * S.length + 1 + k - S.length = S.length + k + 1 by omega,
      List.getD_cons_succ, List.getD_append_right _ _ _ _ (by simp; omega)]
    simp [List.getD_eq_getElem?_getD, hdl, hk]
  have hlen : z.length = 2 * S.length + hs.length + 1 := by simp [hz, pairSolution, hdl]; omega
  obtain ⟨t1, t2, t3⟩ := program_tmulVec S nu hs z
  have hobj : (LPBoost.program S nu hs).objective (pairSolution S nu hs d w γ).x = -γ := by
    simp only [pairSolution]
    rw [objective_eq S nu hs γ _ w (by simp)]
    simp
  have hst : ∀ j, j < (LPBoost.program S nu hs).A.nCols →
      (LPBoost.program S nu hs).P.tmulVec (pairSolution S nu hs d w γ).x j + (LPBoost.program S nu hs).q.getD j 0 +
        (LPBoost.program S nu hs).A.tmulVec z j = 0 := by
    intro j hj
    rw [d3, Csc.zeros_tmulVec, zero_add]
    rw [d2] at hj
    by_cases c0 : j = 0
    · subst c0
      rw [q1, t1, Finset.sum_congr rfl fun i hi => z1 i (Finset.mem_range.1 hi)]
      have := sum_getD d
      rw [hdl, hp.dprob.2] at this
      rw [← this]; ring
    · by_cases c1 : j < 1 + S.length
      · obtain ⟨r, rfl⟩ : ∃ r, j = 1 + r := ⟨j - 1, by omega⟩
        rw [q2 r (by omega), t2 r (by omega), z1 r (by omega), z3 r (by omega)]; ring
      · obtain ⟨k, rfl⟩ : ∃ k, j = 1 + S.length + k := ⟨j - (1 + S.length), by omega⟩
        have hk : k < hs.length := by omega
        have hk' : hs[k]? = some hs[k] := by simp [hk]
        rw [q3 k, t3 k hs[k] hk', z2, z4 k hs[k] hk', edge_sum S d hs[k] (by omega),
          Finset.sum_congr rfl fun i hi => by rw [z1 i (Finset.mem_range.1 hi)]]
        ring
  have hx : (pairSolution S nu hs d w γ).x.length = (LPBoost.program S nu hs).A.nCols := by
    rw [d2]; simp [pairSolution, hp.wlen]
  refine ⟨?_, by rw [d1]; exact hlen, ?_, hst, ?_, by rw [hobj]; rfl⟩
  · simp only [pairSolution]
    rw [feasible_iff S nu hs γ _ w (by simp) hp.wlen]
    refine ⟨by simp, hp.wprob, ?_⟩
    intro i e he
    have := hp.margins e (List.mem_of_getElem? he)
    have h0 : (List.replicate S.length (0 : K)).getD i 0 = 0 := by
      simp only [List.getD_eq_getElem?_getD, List.getElem?_replicate]; split <;> simp
    rw [h0]; linarith
  · intro i hi
    rw [program_isEq] at hi
    by_cases c1 : i < S.length
    · show 0 ≤ z.getD i 0
      rw [z1 i c1]
      exact hp.dprob.1 _ (getD_mem d i (by omega))
    · rw [if_neg c1] at hi
      by_cases c2 : i = S.length
      · rw [if_pos c2] at hi; cases hi
      · rw [if_neg c2] at hi
        by_cases c3 : i < 2 * S.length + hs.length + 1
        · by_cases c4 : i < 2 * S.length + 1
          · obtain ⟨r, rfl⟩ : ∃ r, i = S.length + 1 + r := ⟨i - (S.length + 1), by omega⟩
            show 0 ≤ z.getD _ 0
            rw [z3 r (by omega)]
            have := prob_le_one hp.dprob _ (getD_mem d r (by omega))
            linarith
          · obtain ⟨k, rfl⟩ : ∃ k, i = 2 * S.length + 1 + k := ⟨i - (2 * S.length + 1), by omega⟩
            show 0 ≤ z.getD _ 0
            have hk : k < hs.length := by omega
            rw [z4 k hs[k] (by simp [hk])]
            have := hp.edges hs[k] (List.getElem_mem hk)
            linarith
        · rw [if_neg c3] at hi; cases hi
  · have := (LPBoost.program S nu hs).lin_dual _ d3 (program_wellFormed S nu hs) (pairSolution S nu hs d w γ).x z hst
      (pairSolution S nu hs d w γ).x hx
    have hzb : ∑ i ∈ Finset.range (LPBoost.program S nu hs).A.nRows, z.getD i 0 *
        (LPBoost.program S nu hs).b.getD i 0 = γ := by
      rw [d1, Finset.sum_eq_single S.length]
      · rw [program_b, if_pos rfl, mul_one, z2]
      · intro i _ hi; rw [program_b, if_neg hi, mul_zero]
      · intro h; exact absurd (Finset.mem_range.2 (by omega)) h
    rw [hobj, hzb] at this
    rw [sum_range_list]
    linarith

omit [LinearOrder K] [IsStrictOrderedRing K] [Classifier H X K] in
theorem edge_indicator (S : Examples X K) (i : Nat) (e : X × K) (he : S[i]? = some e) (g : X → K) :
    Spec.edge S ((List.replicate S.length (0 : K)).set i 1) g = e.2 * g e.1 := by
  induction S generalizing i with
  | nil => simp at he
  | cons a S ih =>
    match i with
    | 0 =>
      simp at he; subst he
      have : ∀ (S : Examples X K) (n : Nat), Spec.edge S (List.replicate n (0 : K)) g = 0 := by
        intro S
        induction S with
        | nil => intro n; simp [Spec.edge]
        | cons a S ih =>
          intro n
          cases n with
          | zero => simp [Spec.edge]
          | succ n =>
            have := ih n
            unfold Spec.edge at this ⊢
            rw [List.replicate_succ, List.zip_cons_cons, List.map_cons, List.sum_cons, this]; ring
      have h2 := this S S.length
      unfold Spec.edge at h2 ⊢
      rw [List.length_cons, List.replicate_succ, List.set_cons_zero, List.zip_cons_cons, List.map_cons, List.sum_cons,
        h2]; ring
    | i + 1 =>
      have := ih i (by simpa using he)
      unfold Spec.edge at this ⊢
      rw [List.length_cons, List.replicate_succ, List.set_cons_succ, List.zip_cons_cons, List.map_cons, List.sum_cons,
        this]; ring

omit [Classifier H X K] in
theorem indicator_prob (n i : Nat) (hi : i < n) :
    ((List.replicate n (0 : K)).set i 1).length = n ∧ Spec.IsProb ((List.replicate n (0 : K)).set i 1) := by
  refine ⟨by simp, ?_, ?_⟩
  · intro p hp
    rcases List.mem_or_eq_of_mem_set hp with h | h
    · rw [List.eq_of_mem_replicate h]
    · rw [h]; exact zero_le_one
  · rw [sum_getD, List.length_set, List.length_replicate, Finset.sum_eq_single i]
    · simp [List.getD_eq_getElem?_getD, hi]
    · intro j hj hne
      have := Finset.mem_range.1 hj
      simp [List.getD_eq_getElem?_getD, List.getElem?_set, Ne.symm hne, this]
    · intro h; exact absurd (Finset.mem_range.2 hi) h

end

variable {H X : Type*} [Classifier H X ℝ]

theorem exists_pair (S : Examples X ℝ) (hS : S ≠ []) (hs : List H) (hhs : hs ≠ []) :
    ∃ d w γ, Spec.HardMarginPair S hs d w γ := by
  have h1 : (1 : ℝ) ≤ (S.length : ℝ) * 1 := by
    rw [mul_one]; exact_mod_cast List.length_pos_iff.2 hS
  obtain ⟨d, w, γ, h1, h2, h3, h4, h5, h6, h7⟩ := saddle_list S hS (hs.map fun h x => conf h x) (by simpa using hhs) 1 h1
    (fun _ _ => 0) (fun _ => convexOn_const 0 (convex_Icc 0 1)) (fun _ => continuousOn_const)
  have hpen : ∀ d : List ℝ, penalty (fun _ _ => 0) d = 0 := by intro d; simp [penalty]
  simp only [hpen, add_zero] at h6 h7
  have hvote : ∀ x : X, (List.zipWith (fun (w : ℝ) (f : X → ℝ) => w * f x) w (hs.map fun h x => conf h x)).sum =
      Spec.vote conf (List.zip w hs) x := by
    intro x
    rw [← weightedConf_eq_vote, List.zipWith_map_right]; rfl
  refine ⟨d, w, γ, h1, h2, by simpa using h4, h5, ?_, ?_⟩
  · intro h hh
    exact h6 _ (List.mem_map_of_mem hh)
  · intro e he
    obtain ⟨i, hi, rfl⟩ := List.getElem_of_mem he
    obtain ⟨g1, g2⟩ := indicator_prob (K := ℝ) S.length i hi
    have := h7 _ g1 g2 (prob_le_one g2)
    rw [edge_indicator S i S[i] (by simp [hi]), hvote] at this
    exact this

theorem exists_optimal (S : Examples X ℝ) (hS : S ≠ []) (nu : ℝ) (hnu : 1 ≤ nu) (hs : List H) (hhs : hs ≠ []) :
    ∃ s, (LPBoost.program S nu hs).Optimal s := by
  obtain ⟨d, w, γ, h⟩ := exists_pair S hS hs hhs
  exact ⟨_, optimal_of_pair S nu hnu hs d w γ h⟩

end LP

end Miniboosts
