import Verif.Lemmas.LPBoost
import Verif.Lemmas.Minimax
import Verif.Lemmas.CERLPBoost
import Mathlib.Data.List.GetD

/-! # Solutions of the program LPBoost assembles -/

namespace Miniboosts

variable {K : Type*} [Field K] [LinearOrder K] {H X : Type*} [Classifier H X K]

/-- `d` and `w` certify each other: under the distribution `d` no hypothesis has an edge above `γ`, and the
convex combination with weights `w` has margin at least `γ` on every example. -/
structure Spec.HardMarginPair (S : Examples X K) (hs : List H) (d w : List K) (γ : K) : Prop where
  dlen : d.length = S.length
  dprob : Spec.IsProb d
  wlen : w.length = hs.length
  wprob : Spec.IsProb w
  edges : ∀ h ∈ hs, Spec.edge S d (conf h) ≤ γ
  margins : ∀ e ∈ S, γ ≤ e.2 * Spec.vote conf (List.zip w hs) e.1

namespace LP

theorem edge_sum (S : Examples X K) (d : List K) (h : H) (hd : S.length ≤ d.length) :
    Spec.edge S d (conf h) = ∑ i ∈ Finset.range S.length, (margins S h).getD i 0 * d.getD i 0 := by
  rw [← innerProduct_eq_zip, innerProduct, List.zipWith_comm,
    show (fun (b a : K) => a * b) = fun b a => b * a by funext b a; exact mul_comm a b, zipWith_mul_sum]
  simp only [List.length_map]
  apply Finset.sum_congr rfl
  intro i _
  rw [mul_comm]; rfl

omit [LinearOrder K] in
theorem sum_getD (l : List K) : l.sum = ∑ i ∈ Finset.range l.length, l.getD i 0 := by
  rw [← sum_range_list]
  induction l with
  | nil => simp
  | cons a l ih =>
    rw [List.sum_cons, ih, List.length_cons, List.range_succ_eq_map, List.map_cons, List.sum_cons, List.map_map]
    simp [Function.comp_def]

theorem vote_sum (S : Examples X K) (w : List K) (hs : List H) (hl : w.length = hs.length) (i : Nat) (e : X × K)
    (he : S[i]? = some e) :
    e.2 * Spec.vote conf (List.zip w hs) e.1 =
      ∑ k ∈ Finset.range hs.length, ((hs.map (margins S)).getD k []).getD i 0 * w.getD k 0 := by
  rw [← weightedConf_eq_vote]
  unfold weightedConf
  induction hs generalizing w with
  | nil => simp
  | cons h hs ih =>
    match w, hl with
    | a :: w, hl =>
      have := ih w (by simpa using hl)
      rw [List.zipWith_cons_cons, List.sum_cons, mul_add, this, List.length_cons, Finset.sum_range_succ', add_comm]
      congr 1
      simp only [List.map_cons, List.getD_cons_zero]
      rw [List.getD_eq_getElem?_getD, margins, List.getElem?_map, he]
      simp only [Option.map_some, Option.getD_some]
      ring

omit [LinearOrder K] [Classifier H X K] in
theorem getD_mem (l : List K) (i : Nat) (h : i < l.length) : l.getD i 0 ∈ l := by
  rw [List.getD_eq_getElem?_getD, List.getElem?_eq_getElem h]
  exact List.getElem_mem h

omit [LinearOrder K] [Classifier H X K] in
theorem mem_getD (l : List K) (p : K) (h : p ∈ l) : ∃ i, i < l.length ∧ l.getD i 0 = p := by
  obtain ⟨i, hi, rfl⟩ := List.getElem_of_mem h
  exact ⟨i, hi, by rw [List.getD_eq_getElem?_getD, List.getElem?_eq_getElem hi]; rfl⟩

theorem getD_take (l : List K) (n i : Nat) (h : i < n) : (l.take n).getD i 0 = l.getD i 0 := by
  simp [List.getD_eq_getElem?_getD, h]

theorem getD_drop (l : List K) (n i : Nat) : (l.drop n).getD i 0 = l.getD (n + i) 0 := by
  simp [List.getD_eq_getElem?_getD]

variable [IsStrictOrderedRing K]

/-- The feasible set. -/
theorem feasible_iff (S : Examples X K) (nu : K) (hs : List H) (ρ : K) (ξ w : List K) (hξ : ξ.length = S.length)
    (hw : w.length = hs.length) :
    (LPBoost.program S nu hs).Feasible (ρ :: (ξ ++ w)) ↔
      (∀ r ∈ ξ, 0 ≤ r) ∧ Spec.IsProb w ∧
        ∀ i e, S[i]? = some e → ρ - ξ.getD i 0 ≤ e.2 * Spec.vote conf (List.zip w hs) e.1 := by
  obtain ⟨m1, m2, m3, m4⟩ := program_mulVec S nu hs (ρ :: (ξ ++ w))
  have hx0 : (ρ :: (ξ ++ w)).getD 0 0 = ρ := rfl
  have hxξ : ∀ r, r < S.length → (ρ :: (ξ ++ w)).getD (1 + r) 0 = ξ.getD r 0 := by
    intro r hr
    rw [Nat.add_comm]
    simp only [List.getD_cons_succ]
    rw [List.getD_append _ _ _ _ (by omega)]
  have hxw : ∀ k, (ρ :: (ξ ++ w)).getD (1 + S.length + k) 0 = w.getD k 0 := by
    intro k
    rw [show 1 + S.length + k = S.length + k + 1 by omega]
    simp only [List.getD_cons_succ]
    rw [List.getD_append_right _ _ _ _ (by omega), show S.length + k - ξ.length = k by omega]
  have hsum : ∑ k ∈ Finset.range hs.length, (ρ :: (ξ ++ w)).getD (1 + S.length + k) 0 = w.sum := by
    rw [sum_getD w, hw]
    exact Finset.sum_congr rfl fun k _ => hxw k
  have hvote : ∀ i e, S[i]? = some e → ∑ k ∈ Finset.range hs.length,
      ((hs.map (margins S)).getD k []).getD i 0 * (ρ :: (ξ ++ w)).getD (1 + S.length + k) 0 =
        e.2 * Spec.vote conf (List.zip w hs) e.1 := by
    intro i e he
    rw [vote_sum S w hs hw i e he]
    exact Finset.sum_congr rfl fun k _ => by rw [hxw]
  unfold Program.Feasible Program.slack
  simp only [program_isEq, program_b]
  constructor
  · rintro ⟨-, h⟩
    refine ⟨?_, ⟨?_, ?_⟩, ?_⟩
    · intro r hr
      obtain ⟨i, hi, rfl⟩ := mem_getD _ _ hr
      have := (h (S.length + 1 + i) false (by rw [if_neg (by omega), if_neg (by omega), if_pos (by omega)])).2 rfl
      rw [if_neg (by omega), m3 i (by omega), hxξ i (by omega)] at this
      linarith
    · intro p hp
      obtain ⟨k, hk, rfl⟩ := mem_getD _ _ hp
      have := (h (2 * S.length + 1 + k) false (by rw [if_neg (by omega), if_neg (by omega), if_pos (by omega)])).2 rfl
      rw [if_neg (by omega), m4 k (by omega), hxw k] at this
      linarith
    · have := (h S.length true (by rw [if_neg (by omega), if_pos rfl])).1 rfl
      rw [if_pos rfl, m2, hsum] at this
      linarith
    · intro i e he
      have hi : i < S.length := (List.getElem?_eq_some_iff.1 he).1
      have := (h i false (by rw [if_pos hi])).2 rfl
      rw [if_neg (by omega), m1 i hi, hvote i e he, hx0, hxξ i hi] at this
      linarith
  · rintro ⟨h1, ⟨h2, h3⟩, h4⟩
    refine ⟨by rw [(program_dims S nu hs).2.1]; simp [hξ, hw], ?_⟩
    intro i b hib
    by_cases c1 : i < S.length
    · rw [if_pos c1] at hib
      cases hib
      refine ⟨by simp, fun _ => ?_⟩
      have := h4 i S[i] (by simp [c1])
      rw [if_neg (by omega), m1 i c1, hvote i S[i] (by simp [c1]), hx0, hxξ i c1]
      linarith
    · rw [if_neg c1] at hib
      by_cases c2 : i = S.length
      · rw [if_pos c2] at hib
        cases hib
        refine ⟨fun _ => ?_, by simp⟩
        rw [if_pos c2, c2, m2, hsum, h3]; ring
      · rw [if_neg c2] at hib
        by_cases c3 : i < 2 * S.length + hs.length + 1
        · rw [if_pos c3] at hib
          cases hib
          refine ⟨by simp, fun _ => ?_⟩
          rw [if_neg c2]
          by_cases c4 : i < 2 * S.length + 1
          · obtain ⟨r, rfl⟩ : ∃ r, i = S.length + 1 + r := ⟨i - (S.length + 1), by omega⟩
            rw [m3 r (by omega), hxξ r (by omega)]
            have := h1 _ (getD_mem ξ r (by omega))
            linarith
          · obtain ⟨k, rfl⟩ : ∃ k, i = 2 * S.length + 1 + k := ⟨i - (2 * S.length + 1), by omega⟩
            rw [m4 k (by omega), hxw k]
            have := h2 _ (getD_mem w k (by omega))
            linarith
        · rw [if_neg c3] at hib; cases hib

omit [IsStrictOrderedRing K] in
theorem objective_eq (S : Examples X K) (nu : K) (hs : List H) (ρ : K) (ξ w : List K) (hξ : ξ.length = S.length) :
    (LPBoost.program S nu hs).objective (ρ :: (ξ ++ w)) = -ρ + nu * ξ.sum := by
  rw [Program.objective_lin _ _ (program_dims S nu hs).2.2.1, ← zipWith_mul_sum,
    (program_dims S nu hs).2.2.2.1, List.zipWith_cons_cons, List.sum_cons,
    List.zipWith_append (by simp [hξ]), List.sum_append]
  have h1 : ∀ (n : Nat) (c : K) (l : List K), l.length = n →
      (List.zipWith (fun a b => a * b) (List.replicate n c) l).sum = c * l.sum := by
    intro n c l
    induction l generalizing n with
    | nil => intro _; simp
    | cons a l ih =>
      intro h
      match n, h with
      | n + 1, h =>
        rw [List.replicate_succ, List.zipWith_cons_cons, List.sum_cons, ih n (by simpa using h), List.sum_cons]; ring
  have h2 : ∀ (n : Nat) (l : List K), (List.zipWith (fun a b => a * b) (List.replicate n (0 : K)) l).sum = 0 := by
    intro n l
    induction l generalizing n with
    | nil => simp
    | cons a l ih =>
      match n with
      | 0 => simp
      | n + 1 => rw [List.replicate_succ, List.zipWith_cons_cons, List.sum_cons, ih n]; ring
  rw [h1 _ _ _ hξ, h2]; ring

omit [IsStrictOrderedRing K] in
theorem q_getD (S : Examples X K) (nu : K) (hs : List H) :
    (LPBoost.program S nu hs).q.getD 0 0 = -1 ∧
    (∀ r, r < S.length → (LPBoost.program S nu hs).q.getD (1 + r) 0 = nu) ∧
    (∀ k, (LPBoost.program S nu hs).q.getD (1 + S.length + k) 0 = 0) := by
  rw [(program_dims S nu hs).2.2.2.1]
  refine ⟨rfl, ?_, ?_⟩
  · intro r hr
    rw [Nat.add_comm, List.getD_cons_succ, List.getD_append _ _ _ _ (by simpa using hr)]
    simp [List.getD_eq_getElem?_getD, hr]
  · intro k
    rw [show 1 + S.length + k = S.length + k + 1 by omega, List.getD_cons_succ,
      List.getD_append_right _ _ _ _ (by simp)]
    simp only [List.length_replicate, Nat.add_sub_cancel_left, List.getD_eq_getElem?_getD, List.getElem?_replicate]
    split <;> simp

/-- What stationarity and the signs of the multipliers say. -/
theorem multipliers (S : Examples X K) (nu : K) (hs : List H) (x z : List K)
    (hz : z.length = (LPBoost.program S nu hs).A.nRows)
    (hd : ∀ i, (Program.isEq (LPBoost.program S nu hs).cones)[i]? = some false → 0 ≤ z.getD i 0)
    (hst : ∀ j, j < (LPBoost.program S nu hs).A.nCols →
      (LPBoost.program S nu hs).P.tmulVec x j + (LPBoost.program S nu hs).q.getD j 0 +
        (LPBoost.program S nu hs).A.tmulVec z j = 0) :
    (z.take S.length).length = S.length ∧ Spec.IsProb (z.take S.length) ∧ (∀ p ∈ z.take S.length, p ≤ nu) ∧
      ∀ h ∈ hs, Spec.edge S (z.take S.length) (conf h) ≤ z.getD S.length 0 := by
  obtain ⟨d1, d2, d3, d4, d5, d6⟩ := program_dims S nu hs
  obtain ⟨t1, t2, t3⟩ := program_tmulVec S nu hs z
  obtain ⟨q1, q2, q3⟩ := q_getD S nu hs
  rw [d1] at hz
  rw [d2] at hst
  simp only [d3, Csc.zeros_tmulVec, zero_add, program_isEq] at hst hd
  have hl : (z.take S.length).length = S.length := by simp; omega
  refine ⟨hl, ⟨?_, ?_⟩, ?_, ?_⟩
  · intro p hp
    obtain ⟨i, hi, rfl⟩ := mem_getD _ _ hp
    rw [hl] at hi
    rw [getD_take _ _ _ hi]
    exact hd i (by rw [if_pos hi])
  · rw [sum_getD, hl, Finset.sum_congr rfl fun i hi => getD_take z _ i (Finset.mem_range.1 hi), ← t1]
    have := hst 0 (by omega)
    rw [q1] at this
    linarith
  · intro p hp
    obtain ⟨i, hi, rfl⟩ := mem_getD _ _ hp
    rw [hl] at hi
    rw [getD_take _ _ _ hi]
    have h1 := hst (1 + i) (by omega)
    rw [q2 i hi, t2 i hi] at h1
    have h2 := hd (S.length + 1 + i) (by rw [if_neg (by omega), if_neg (by omega), if_pos (by omega)])
    linarith
  · intro h hh
    obtain ⟨k, hk, rfl⟩ := List.getElem_of_mem hh
    have h1 := hst (1 + S.length + k) (by omega)
    rw [q3 k, t3 k hs[k] (by simp [hk])] at h1
    have h2 := hd (2 * S.length + 1 + k) (by rw [if_neg (by omega), if_neg (by omega), if_pos (by omega)])
    rw [edge_sum S _ _ (by omega),
      Finset.sum_congr rfl fun i hi => by rw [getD_take z _ i (Finset.mem_range.1 hi)]]
    linarith

/-- An optimal pair contains a certificate for the best hard margin. -/
theorem optimal_pair (S : Examples X K) (nu : K) (hnu : 1 ≤ nu) (hs : List H) (s : Solution K)
    (ho : (LPBoost.program S nu hs).Optimal s) :
    1 + S.length ≤ s.x.length ∧ S.length ≤ s.z.length ∧
      Spec.HardMarginPair S hs (s.z.take S.length) (s.x.drop (1 + S.length)) (-s.objVal) := by
  obtain ⟨d1, d2, d3, d4, d5, d6⟩ := program_dims S nu hs
  obtain ⟨m1, m2, m3, m4⟩ := multipliers S nu hs s.x s.z ho.zlen ho.dual ho.stationary
  have hx : s.x.length = S.length + hs.length + 1 := by rw [ho.feasible.1, d2]
  have hz : s.z.length = 2 * S.length + hs.length + 1 := by rw [ho.zlen, d1]
  have hval : -s.objVal = s.z.getD S.length 0 := by
    rw [ho.lin_value _ d3 (program_wellFormed S nu hs), d1, neg_neg, Finset.sum_eq_single S.length]
    · rw [program_b, if_pos rfl, mul_one]
    · intro i _ hi; rw [program_b, if_neg hi, mul_zero]
    · intro h; exact absurd (Finset.mem_range.2 (by omega)) h
  obtain ⟨ρ, ξ, w, hxe, hξ, hw⟩ : ∃ ρ ξ w, s.x = ρ :: (ξ ++ w) ∧ ξ.length = S.length ∧ w.length = hs.length := by
    match hxx : s.x, hx with
    | ρ :: l, hx =>
      refine ⟨ρ, l.take S.length, l.drop S.length, by rw [List.take_append_drop], ?_, ?_⟩
      · simp at hx ⊢; omega
      · simp at hx ⊢; omega
  have hf := ho.feasible
  rw [hxe, feasible_iff S nu hs ρ ξ w hξ hw] at hf
  obtain ⟨f1, f2, f3⟩ := hf
  have hobj : s.objVal = -ρ + nu * ξ.sum := by rw [ho.value, hxe, objective_eq S nu hs ρ ξ w hξ]
  have hdrop : s.x.drop (1 + S.length) = w := by
    rw [hxe, Nat.add_comm, List.drop_succ_cons, List.drop_append, List.drop_eq_nil_of_le (by omega), hξ,
      Nat.sub_self, List.drop_zero, List.nil_append]
  refine ⟨by omega, by omega, m1, m2, by rw [hdrop, hw], by rw [hdrop]; exact f2, fun h hh => by rw [hval]; exact m4 h hh, ?_⟩
  intro e he
  obtain ⟨i, hi, rfl⟩ := List.getElem_of_mem he
  have := f3 i S[i] (by simp [hi])
  have hle : ξ.getD i 0 ≤ nu * ξ.sum := by
    have h0 : ξ.getD i 0 ≤ ξ.sum := by
      have := single_le_sum_map ξ id (by simpa using f1) (getD_mem ξ i (by omega))
      simpa using this
    have h1 : 0 ≤ ξ.sum := sum_nonneg' _ f1
    nlinarith
  rw [hdrop, hobj]
  linarith

theorem pair_edge (S : Examples X K) (hs : List H) (d w : List K) (hw : w.length = hs.length)  :
    Spec.edge S d (fun x => Spec.vote conf (List.zip w hs) x) =
      ((List.zip w hs).map fun p => p.1 * Spec.edge S d (conf p.2)).sum := by
  induction hs generalizing w with
  | nil => simp [Spec.edge, Spec.vote]
  | cons h hs ih =>
    match w, hw with
    | a :: w, hw =>
      have := ih w (by simpa using hw)
      simp only [List.zip_cons_cons, List.map_cons, List.sum_cons, ← this, Spec.vote]
      unfold Spec.edge
      rw [← sum_map_mul_left', ← sum_map_add']
      congr 1
      apply List.map_congr_left
      intro p _
      ring

omit [Classifier H X K] in
theorem le_edge_of_margins (S : Examples X K) (d : List K) (hl : d.length = S.length) (hd : Spec.IsProb d) (g : X → K)
    (γ : K) (hg : ∀ e ∈ S, γ ≤ e.2 * g e.1) : γ ≤ Spec.edge S d g := by
  have h1 : γ = ((List.zip S d).map fun p => p.2 * γ).sum := by
    have : ((List.zip S d).map fun p => p.2 * γ) = (((List.zip S d).map Prod.snd).map fun a => a * γ) := by
      rw [List.map_map]; rfl
    rw [this, List.map_snd_zip (by omega), List.sum_map_mul_right, List.map_id', hd.2, one_mul]
  rw [h1]
  unfold Spec.edge
  apply sum_map_le
  intro p hp
  exact mul_le_mul_of_nonneg_left (hg _ (List.of_mem_zip hp).1) (hd.1 _ (List.of_mem_zip hp).2)

theorem weighted_le (l : List (K × H)) (hnn : ∀ p ∈ l, 0 ≤ p.1) (hsum : (l.map Prod.fst).sum = 1) (g : H → K) (γ : K)
    (hg : ∀ p ∈ l, g p.2 ≤ γ) : (l.map fun p => p.1 * g p.2).sum ≤ γ := by
  have h1 : γ = (l.map fun p => p.1 * γ).sum := by
    have : (l.map fun p => p.1 * γ) = ((l.map Prod.fst).map fun a => a * γ) := by rw [List.map_map]; rfl
    rw [this, List.sum_map_mul_right, List.map_id', hsum, one_mul]
  rw [h1]
  apply sum_map_le
  intro p hp
  exact mul_le_mul_of_nonneg_left (hg p hp) (hnn p hp)

/-- A convex combination has no larger edge than the best of its members. -/
theorem vote_edge_le (S : Examples X K) (hs : List H) (d w : List K) (hw : w.length = hs.length) (hp : Spec.IsProb w)
    (γ : K) (hg : ∀ h ∈ hs, Spec.edge S d (conf h) ≤ γ) :
    Spec.edge S d (fun x => Spec.vote conf (List.zip w hs) x) ≤ γ := by
  rw [pair_edge S hs d w hw]
  apply weighted_le _ _ _ (fun h => Spec.edge S d (conf h))
  · intro p hp; exact hg _ (List.of_mem_zip hp).2
  · intro p hpp; exact hp.1 _ (List.of_mem_zip hpp).1
  · rw [List.map_fst_zip (by omega), hp.2]

end LP

end Miniboosts
