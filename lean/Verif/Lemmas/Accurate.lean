import Verif.Spec.Accurate
import Verif.Lemmas.LPBoostOpt

/-! # Lemmas about solvers of finite accuracy -/

namespace Miniboosts

namespace Accurate

variable {K : Type*} [Field K] [LinearOrder K] [IsStrictOrderedRing K]

theorem mono {p : Program K} {ε δ : K} (h : ε ≤ δ) {s : Solution K} (ha : p.Accurate ε s) : p.Accurate δ s :=
  ⟨ha.xlen, ha.zlen, fun i hi => (ha.equality i hi).trans h, fun i hi => (neg_le_neg h).trans (ha.inequality i hi),
    fun i hi => (neg_le_neg h).trans (ha.dual i hi), fun j hj => (ha.stationary j hj).trans h, ha.value.trans h,
    ha.gap.trans h⟩

/-- An optimal pair satisfies the conditions without error. -/
theorem of_optimal {p : Program K} (hp : p.WellFormed) {s : Solution K} (ho : p.Optimal s) : p.Accurate 0 s := by
  refine ⟨ho.feasible.1, ho.zlen, fun i hi => ?_, fun i hi => ?_, fun i hi => ?_, fun j hj => ?_, ?_, ?_⟩
  · rw [(ho.feasible.2 i true hi).1 rfl, abs_zero]
  · rw [neg_zero]; exact (ho.feasible.2 i false hi).2 rfl
  · rw [neg_zero]; exact ho.dual i hi
  · rw [ho.stationary j hj, abs_zero]
  · rw [ho.value, sub_self, abs_zero]
  · have hsw := p.A.swap (fun j hj => (hp.matrix.rows j hj).2) s.x s.z
    have h1 : ∑ j ∈ Finset.range p.A.nCols, s.x.getD j 0 * (p.P.tmulVec s.x j + p.q.getD j 0 + p.A.tmulVec s.z j) = 0 :=
      Finset.sum_eq_zero fun j hj => by rw [ho.stationary j (Finset.mem_range.1 hj), mul_zero]
    have h2 := ho.compl
    rw [sum_range_list] at h2
    simp only [mul_add, Finset.sum_add_distrib] at h1
    simp only [Program.slack, mul_sub, Finset.sum_sub_distrib] at h2
    have h3 : (List.zipWith (fun a b => a * b) p.q s.x).sum = ∑ j ∈ Finset.range p.A.nCols, s.x.getD j 0 * p.q.getD j 0 := by
      rw [zipWith_mul_sum, ho.feasible.1]
      exact Finset.sum_congr rfl fun j _ => mul_comm _ _
    rw [ho.value]
    unfold Program.objective Program.dualObjective
    rw [sum_range_list, sum_range_list, h3, hp.psize, abs_le]
    constructor <;> linarith

/-- Clipping at zero changes a near-average of numbers in `[-1, 1]` by little. -/
theorem clip_raw (l : List (K × K)) (ε : K) (hε : 0 ≤ ε) (ha : ∀ p ∈ l, -ε ≤ p.1) (hu : ∀ p ∈ l, |p.2| ≤ 1) :
    |(l.map fun p => max p.1 0 * p.2).sum - (l.map fun p => p.1 * p.2).sum| ≤ l.length * ε ∧
      |(l.map fun p => max p.1 0 * p.2).sum| ≤ (l.map fun p => max p.1 0).sum := by
  induction l with
  | nil => simp
  | cons p l ih =>
    obtain ⟨i1, i2⟩ := ih (fun q hq => ha q (by simp [hq])) (fun q hq => hu q (by simp [hq]))
    have h1 := ha p (by simp)
    have h2 := hu p (by simp)
    simp only [List.map_cons, List.sum_cons, List.length_cons, Nat.cast_add, Nat.cast_one]
    have e1 : |max p.1 0 * p.2 - p.1 * p.2| ≤ ε := by
      rw [← sub_mul, abs_mul]
      have : |max p.1 0 - p.1| ≤ ε := by
        rcases le_total p.1 0 with h | h
        · rw [max_eq_right h, zero_sub, abs_neg, abs_of_nonpos h]; linarith
        · rw [max_eq_left h, sub_self, abs_zero]; exact hε
      calc _ ≤ ε * 1 := mul_le_mul this h2 (abs_nonneg _) hε
        _ = ε := mul_one _
    have e2 : |max p.1 0 * p.2| ≤ max p.1 0 := by
      have h0 : 0 ≤ max p.1 0 := le_max_right _ _
      rw [abs_mul, abs_of_nonneg h0]
      calc _ ≤ max p.1 0 * 1 := mul_le_mul_of_nonneg_left h2 h0
        _ = _ := mul_one _
    constructor
    · calc _ = |(max p.1 0 * p.2 - p.1 * p.2) +
            ((l.map fun p => max p.1 0 * p.2).sum - (l.map fun p => p.1 * p.2).sum)| := by congr 1; ring
        _ ≤ _ := abs_add_le _ _
        _ ≤ ε + l.length * ε := add_le_add e1 i1
        _ = _ := by ring
    · exact (abs_add_le _ _).trans (add_le_add e2 i2)

theorem clip (l : List (K × K)) (ε : K) (hε : 0 ≤ ε) (hε1 : ε < 1) (ha : Spec.NearProb ε (l.map Prod.fst))
    (hu : ∀ p ∈ l, |p.2| ≤ 1) :
    0 < (l.map fun p => max p.1 0).sum ∧
    |(l.map fun p => max p.1 0 * p.2).sum / (l.map fun p => max p.1 0).sum - (l.map fun p => p.1 * p.2).sum| ≤
      (2 * l.length + 1) * ε := by
  have ha' : ∀ p ∈ l, -ε ≤ p.1 := fun p hp => ha.1 _ (List.mem_map_of_mem hp)
  obtain ⟨h1, h2⟩ := clip_raw l ε hε ha' hu
  obtain ⟨h3, -⟩ := clip_raw (l.map fun p => (p.1, (1 : K))) ε hε
    (by intro p hp; obtain ⟨q, hq, rfl⟩ := List.mem_map.1 hp; exact ha' q hq)
    (by intro p hp; obtain ⟨q, hq, rfl⟩ := List.mem_map.1 hp; simp)
  simp only [List.map_map, Function.comp_def, mul_one, List.length_map] at h3
  have h4 := abs_le.1 ha.2
  rw [show (l.map Prod.fst) = l.map fun p => p.1 from rfl] at h4
  have hge : (l.map fun p => p.1).sum ≤ (l.map fun p => max p.1 0).sum :=
    sum_map_le _ _ _ fun p _ => le_max_left _ _
  have hpos : 0 < (l.map fun p => max p.1 0).sum := by linarith [h4.1]
  refine ⟨hpos, ?_⟩
  set A := (l.map fun p => max p.1 0).sum
  set B := (l.map fun p => max p.1 0 * p.2).sum
  set C := (l.map fun p => p.1 * p.2).sum
  set D := (l.map fun p => p.1).sum
  have hr : |B / A| ≤ 1 := by
    rw [abs_div, abs_of_pos hpos, div_le_one hpos]; exact h2
  have hA : |A - 1| ≤ (l.length + 1) * ε := by
    have h3' := abs_le.1 h3
    rw [abs_le]; constructor <;> nlinarith [h3'.1, h3'.2, h4.1, h4.2]
  have hdiff : |B / A - B| ≤ (l.length + 1) * ε := by
    have : B / A - B = -(B / A) * (A - 1) := by field_simp; ring
    rw [this, abs_mul, abs_neg]
    calc _ ≤ 1 * |A - 1| := mul_le_mul_of_nonneg_right hr (abs_nonneg _)
      _ ≤ _ := by rw [one_mul]; exact hA
  calc |B / A - C| = |(B / A - B) + (B - C)| := by congr 1; ring
    _ ≤ _ := abs_add_le _ _
    _ ≤ (l.length + 1) * ε + l.length * ε := add_le_add hdiff h1
    _ = _ := by ring

/-- The probability vector next to a near-probability vector. -/
def clipped (d : List K) : List K := d.map fun p => max p 0 / (d.map fun p => max p 0).sum

theorem clipped_prob (d : List K) (ε : K) (hε : 0 ≤ ε) (hε1 : ε < 1) (hd : Spec.NearProb ε d) :
    Spec.IsProb (clipped d) ∧ (clipped d).length = d.length := by
  have h := (clip (d.map fun p => (p, (0 : K))) ε hε hε1 (by simpa [Function.comp_def] using hd) (by simp)).1
  simp only [List.map_map, Function.comp_def] at h
  refine ⟨⟨?_, ?_⟩, by simp [clipped]⟩
  · intro p hp
    obtain ⟨q, hq, rfl⟩ := List.mem_map.1 hp
    exact div_nonneg (le_max_right _ _) h.le
  · unfold clipped
    simp only [div_eq_mul_inv]
    rw [List.sum_map_mul_right]
    exact mul_inv_cancel₀ h.ne'

/-- Edges under a near-probability vector and under the probability vector next to it. -/
theorem clipped_edge {X : Type*} (S : Examples X K) (d : List K) (ε : K) (hε : 0 ≤ ε) (hε1 : ε < 1)
    (hl : d.length = S.length) (hd : Spec.NearProb ε d) (g : X → K) (hg : ∀ e ∈ S, |e.2 * g e.1| ≤ 1) :
    |Spec.edge S (clipped d) g - Spec.edge S d g| ≤ (2 * S.length + 1) * ε := by
  have h := (clip ((List.zip S d).map fun p => (p.2, p.1.2 * g p.1.1)) ε hε hε1 (by
    rw [List.map_map]
    rw [show (Prod.fst ∘ fun p : (X × K) × K => (p.2, p.1.2 * g p.1.1)) = Prod.snd from rfl,
      List.map_snd_zip (by omega)]
    exact hd) (by
      intro p hp; obtain ⟨q, hq, rfl⟩ := List.mem_map.1 hp
      exact hg _ (List.of_mem_zip hq).1)).2
  simp only [List.map_map, Function.comp_def, List.length_map, List.length_zip, hl, min_self] at h
  have hsum : ((List.zip S d).map fun p => max p.2 0).sum = (d.map fun p => max p 0).sum := by
    rw [show ((List.zip S d).map fun p => max p.2 0) = ((List.zip S d).map Prod.snd).map fun p => max p 0 by
      rw [List.map_map]; rfl, List.map_snd_zip (by omega)]
  rw [hsum] at h
  have hedge : Spec.edge S (clipped d) g =
      ((List.zip S d).map fun p => max p.2 0 * (p.1.2 * g p.1.1)).sum / (d.map fun p => max p 0).sum := by
    unfold Spec.edge clipped
    rw [List.zip_map_right, List.map_map, div_eq_mul_inv, ← List.sum_map_mul_right]
    congr 1
    apply List.map_congr_left
    intro p _
    simp only [Function.comp, Prod.map]
    rw [div_eq_mul_inv]; simp; ring
  rw [hedge]
  exact h

variable {H X : Type*} [Classifier H X K]

/-- What `from_slices` makes of near-probability weights. -/
theorem fromSlices_near (w : List K) (hs : List H) (hl : w.length = hs.length) (ε : K) (hε : 0 ≤ ε) (hε1 : ε < 1)
    (hw : Spec.NearProb ε w) : ∃ f, WeightedMajority.fromSlices w hs = .ok f ∧ Spec.IsProb f.weights ∧
      f.weights.length = f.hypotheses.length ∧ (∀ h ∈ f.hypotheses, h ∈ hs) ∧
      ∀ (y : K) (x : X), (∀ h ∈ hs, |y * conf h x| ≤ 1) →
        |y * conf f x - y * Spec.vote conf (List.zip w hs) x| ≤ (2 * hs.length + 1) * ε := by
  have hfil : ∀ (g : H → K) (l : List (K × H)),
      ((l.filter fun p => decide (0 < p.1)).map fun p => p.1 * g p.2).sum = (l.map fun p => max p.1 0 * g p.2).sum := by
    intro g l
    induction l with
    | nil => simp
    | cons a l ih =>
      by_cases h0 : 0 < a.1
      · rw [List.filter_cons_of_pos (by simpa using h0)]; simp [ih, max_eq_left h0.le]
      · rw [List.filter_cons_of_neg (by simpa using h0)]; simp [ih, max_eq_right (not_lt.1 h0)]
  have hfst : (List.zip w hs).map Prod.fst = w := List.map_fst_zip (by omega)
  have hsum : (((List.zip w hs).filter fun p => decide (0 < p.1)).map Prod.fst).sum =
      ((List.zip w hs).map fun p => max p.1 0).sum := by
    have := hfil (fun _ => 1) (List.zip w hs)
    simpa only [mul_one] using this
  have hclip : ∀ g : H → K, (∀ h ∈ hs, |g h| ≤ 1) → 0 < ((List.zip w hs).map fun p => max p.1 0).sum ∧
      |((List.zip w hs).map fun p => max p.1 0 * g p.2).sum / ((List.zip w hs).map fun p => max p.1 0).sum -
        ((List.zip w hs).map fun p => p.1 * g p.2).sum| ≤ (2 * hs.length + 1) * ε := by
    intro g hg
    have h := clip ((List.zip w hs).map fun p => (p.1, g p.2)) ε hε hε1 (by
      rw [List.map_map, show (Prod.fst ∘ fun p : K × H => (p.1, g p.2)) = Prod.fst from rfl, hfst]; exact hw) (by
      intro p hp; obtain ⟨q, hq, rfl⟩ := List.mem_map.1 hp
      exact hg _ (List.of_mem_zip hq).2)
    simpa only [List.map_map, Function.comp_def, List.length_map, List.length_zip, hl, min_self] using h
  have hpos := (hclip (fun _ => 0) (by simp)).1
  rcases fromSlices_cases w hs with ⟨h1, -⟩ | ⟨h1, h2⟩
  · rw [← hsum, h1] at hpos; simp at hpos
  · refine ⟨_, h2, ⟨?_, ?_⟩, by simp, ?_, ?_⟩
    · intro p hp
      obtain ⟨q, hq, rfl⟩ := List.mem_map.1 hp
      rw [hsum]
      exact div_nonneg (le_of_lt (by simpa using (List.mem_filter.1 hq).2)) hpos.le
    · simp only [div_eq_mul_inv]
      rw [List.sum_map_mul_right]
      exact mul_inv_cancel₀ (by rw [hsum]; exact hpos.ne')
    · intro h hh
      obtain ⟨p, hp, rfl⟩ := List.mem_map.1 hh
      exact (List.of_mem_zip (List.mem_of_mem_filter hp)).2
    · intro y x hb
      have h3 := (hclip (fun h => y * conf h x) hb).2
      rw [(fromSlices_conf (X := X) h2 x).1, hsum]
      have e1 : Spec.vote conf ((List.zip w hs).filter fun p => decide (0 < p.1)) x =
          ((List.zip w hs).map fun p => max p.1 (0 : K) * (conf p.2 x : K)).sum := hfil (fun h => conf h x) _
      rw [e1]
      have e2 : ∀ c : K × H → K, y * ((List.zip w hs).map fun p => c p * conf p.2 x).sum =
          ((List.zip w hs).map fun p => c p * (y * conf p.2 x)).sum := by
        intro c
        rw [← sum_map_mul_left']
        congr 1; apply List.map_congr_left; intro p _; ring
      rw [mul_div_assoc', e2 (fun p => max p.1 0)]
      unfold Spec.vote
      rw [e2 (fun p => p.1)]
      exact h3

end Accurate

/-- `d` and `w` certify each other up to multiples of `ε`. -/
structure Spec.NearPair {K : Type*} [Field K] [LinearOrder K] {H X : Type*} [Classifier H X K] (S : Examples X K)
    (hs : List H) (ε c : K) (d w : List K) (γ : K) : Prop where
  dlen : d.length = S.length
  dnear : Spec.NearProb ε d
  wlen : w.length = hs.length
  wnear : Spec.NearProb ε w
  edges : ∀ h ∈ hs, Spec.edge S d (conf h) ≤ γ + 3 * ε
  margins : ∀ e ∈ S, γ - c * ε ≤ e.2 * Spec.vote conf (List.zip w hs) e.1

namespace LP

variable {K : Type*} [Field K] [LinearOrder K] [IsStrictOrderedRing K] {H X : Type*} [Classifier H X K]

theorem lp_wellFormed (S : Examples X K) (nu : K) (hs : List H) : (LPBoost.program S nu hs).WellFormed := by
  obtain ⟨d1, d2, d3, d4, d5, d6⟩ := program_dims S nu hs
  refine ⟨program_wellFormed S nu hs, ?_, ?_, ?_, ?_⟩
  · rw [d2, d4]; simp
  · rw [d2, d3]; simp only [Csc.zeros]; omega
  · rw [d1, d5]; simp
  · rw [d1, d6]; simp [Program.isEq]; omega

/-- What the optimality conditions up to `ε` say. -/
theorem accurate_pair (S : Examples X K) (nu : K) (hnu : 1 ≤ nu) (hs : List H) (ε : K) (s : Solution K)
    (ho : (LPBoost.program S nu hs).Accurate ε s) :
    1 + S.length ≤ s.x.length ∧ S.length ≤ s.z.length ∧
      Spec.NearPair S hs ε (nu * S.length + 1) (s.z.take S.length) (s.x.drop (1 + S.length)) (-s.objVal) := by
  obtain ⟨d1, d2, d3, d4, d5, d6⟩ := program_dims S nu hs
  obtain ⟨t1, t2, t3⟩ := program_tmulVec S nu hs s.z
  obtain ⟨q1, q2, q3⟩ := q_getD S nu hs
  obtain ⟨m1, m2, m3, m4⟩ := program_mulVec S nu hs s.x
  have hx : s.x.length = S.length + hs.length + 1 := by rw [ho.xlen, d2]
  have hz : s.z.length = 2 * S.length + hs.length + 1 := by rw [ho.zlen, d1]
  have hst := ho.stationary
  have hd := ho.dual
  rw [d2] at hst
  simp only [d3, Csc.zeros_tmulVec, zero_add] at hst
  simp only [program_isEq] at hd
  have hl : (s.z.take S.length).length = S.length := by simp; omega
  -- the primal part
  obtain ⟨ρ, ξ, w, hxe, hξ, hw⟩ : ∃ ρ ξ w, s.x = ρ :: (ξ ++ w) ∧ ξ.length = S.length ∧ w.length = hs.length := by
    match hxx : s.x, hx with
    | ρ :: l, hx =>
      refine ⟨ρ, l.take S.length, l.drop S.length, by rw [List.take_append_drop], ?_, ?_⟩
      · simp at hx ⊢; omega
      · simp at hx ⊢; omega
  have hx0 : s.x.getD 0 0 = ρ := by rw [hxe]; rfl
  have hxξ : ∀ r, r < S.length → s.x.getD (1 + r) 0 = ξ.getD r 0 := by
    intro r hr
    rw [hxe, Nat.add_comm]
    simp only [List.getD_cons_succ]
    rw [List.getD_append _ _ _ _ (by omega)]
  have hxw : ∀ k, s.x.getD (1 + S.length + k) 0 = w.getD k 0 := by
    intro k
    rw [hxe, show 1 + S.length + k = S.length + k + 1 by omega]
    simp only [List.getD_cons_succ]
    rw [List.getD_append_right _ _ _ _ (by omega), show S.length + k - ξ.length = k by omega]
  have hsum : ∑ k ∈ Finset.range hs.length, s.x.getD (1 + S.length + k) 0 = w.sum := by
    rw [sum_getD w, hw]
    exact Finset.sum_congr rfl fun k _ => hxw k
  have hvote : ∀ i e, S[i]? = some e → ∑ k ∈ Finset.range hs.length,
      ((hs.map (margins S)).getD k []).getD i 0 * s.x.getD (1 + S.length + k) 0 =
        e.2 * Spec.vote conf (List.zip w hs) e.1 := by
    intro i e he
    rw [vote_sum S w hs hw i e he]
    exact Finset.sum_congr rfl fun k _ => by rw [hxw]
  have hdrop : s.x.drop (1 + S.length) = w := by
    rw [hxe, Nat.add_comm, List.drop_succ_cons, List.drop_append, List.drop_eq_nil_of_le (by omega), hξ,
      Nat.sub_self, List.drop_zero, List.nil_append]
  have hineq := ho.inequality
  have heq := ho.equality
  simp only [program_isEq, Program.slack, program_b] at hineq heq
  have f1 : ∀ r ∈ ξ, -ε ≤ r := by
    intro r hr
    obtain ⟨i, hi, rfl⟩ := mem_getD _ _ hr
    have := hineq (S.length + 1 + i) (by rw [if_neg (by omega), if_neg (by omega), if_pos (by omega)])
    rw [if_neg (by omega), m3 i (by omega), hxξ i (by omega)] at this
    linarith
  have f2 : ∀ p ∈ w, -ε ≤ p := by
    intro p hp
    obtain ⟨k, hk, rfl⟩ := mem_getD _ _ hp
    have := hineq (2 * S.length + 1 + k) (by rw [if_neg (by omega), if_neg (by omega), if_pos (by omega)])
    rw [if_neg (by omega), m4 k (by omega), hxw k] at this
    linarith
  have f3 : |w.sum - 1| ≤ ε := by
    have := heq S.length (by rw [if_neg (by omega), if_pos rfl])
    rw [if_pos rfl, m2, hsum] at this
    rw [abs_sub_comm]; exact this
  have f4 : ∀ i e, S[i]? = some e → ρ - ξ.getD i 0 - ε ≤ e.2 * Spec.vote conf (List.zip w hs) e.1 := by
    intro i e he
    have hi : i < S.length := (List.getElem?_eq_some_iff.1 he).1
    have := hineq i (by rw [if_pos hi])
    rw [if_neg (by omega), m1 i hi, hvote i e he, hx0, hxξ i hi] at this
    linarith
  have hobj := abs_le.1 ho.value
  rw [hxe, objective_eq S nu hs ρ ξ w hξ] at hobj
  -- the value and the multiplier of the total weight
  have hgap : |s.objVal + s.z.getD S.length 0| ≤ ε := by
    have h := ho.gap
    have : (LPBoost.program S nu hs).dualObjective s.x s.z = -s.z.getD S.length 0 := by
      unfold Program.dualObjective
      rw [d3, sum_range_list, sum_range_list, d1, Finset.sum_eq_single S.length]
      · rw [program_b, if_pos rfl, mul_one]
        simp [Csc.zeros_tmulVec]
      · intro i _ hi; rw [program_b, if_neg hi, mul_zero]
      · intro h; exact absurd (Finset.mem_range.2 (by omega)) h
    rw [this, sub_neg_eq_add] at h
    exact h
  refine ⟨by omega, by omega, hl, ⟨?_, ?_⟩, by rw [hdrop, hw], by rw [hdrop]; exact ⟨f2, f3⟩, ?_, ?_⟩
  · intro p hp
    obtain ⟨i, hi, rfl⟩ := mem_getD _ _ hp
    rw [hl] at hi
    rw [getD_take _ _ _ hi]
    exact hd i (by rw [if_pos hi])
  · rw [sum_getD, hl, Finset.sum_congr rfl fun i hi => getD_take s.z _ i (Finset.mem_range.1 hi), ← t1]
    have := hst 0 (by omega)
    rw [q1, add_comm, ← sub_eq_add_neg] at this
    exact this
  · intro h hh
    obtain ⟨k, hk, rfl⟩ := List.getElem_of_mem hh
    have h1 := hst (1 + S.length + k) (by omega)
    rw [q3 k, t3 k hs[k] (by simp [hk])] at h1
    have h2 := hd (2 * S.length + 1 + k) (by rw [if_neg (by omega), if_neg (by omega), if_pos (by omega)])
    rw [edge_sum S _ _ (by omega),
      Finset.sum_congr rfl fun i hi => by rw [getD_take s.z _ i (Finset.mem_range.1 hi)]]
    have h3 := (abs_le.1 h1).1
    have h4 := (abs_le.1 hgap).2
    linarith
  · intro e he
    obtain ⟨i, hi, rfl⟩ := List.getElem_of_mem he
    have h1 := f4 i S[i] (by simp [hi])
    have hle : ξ.getD i 0 + ε ≤ nu * (ξ.sum + S.length * ε) := by
      have hs' : (ξ.map fun r => r + ε).sum = ξ.sum + S.length * ε := by
        rw [← hξ]
        clear * -
        induction ξ with
        | nil => simp
        | cons a l ih => simp only [List.map_cons, List.sum_cons, ih, List.length_cons]; push_cast; ring
      have h0 : ξ.getD i 0 + ε ≤ ξ.sum + S.length * ε := by
        rw [← hs']
        exact single_le_sum_map ξ (fun r => r + ε) (fun r hr => by linarith [f1 r hr]) (getD_mem ξ i (by omega))
      have h2 : 0 ≤ ξ.sum + S.length * ε := by
        rw [← hs']
        apply sum_nonneg'
        intro p hp; obtain ⟨r, hr, rfl⟩ := List.mem_map.1 hp; linarith [f1 r hr]
      nlinarith
    rw [hdrop]
    linarith [hobj.1]

end LP

end Miniboosts
