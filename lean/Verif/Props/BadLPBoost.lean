import Verif.Props.BadLearner
import Verif.Props.LPBoost

/-! # C76: LPBoost against the worst-case learner -/

namespace Miniboosts.Props

open Spec (pointMass)

namespace Bad

theorem numbered_length {K : Type*} [Field K] [LinearOrder K] (target : List K) : (numbered target).length = target.length := by
  simp [numbered]

section
variable (target : List ℝ) (hpm : Spec.PmLabels (numbered target))

/-- The margin of `h` on row `i`. -/
noncomputable def M (h : BadClassifier ℝ) (i : Nat) : ℝ := (margins (numbered target) h).getD i 0

include hpm in
theorem M_eq (h : BadClassifier ℝ) (i : Nat) (hi : i < target.length) :
    M target h i =
      if h.tag = 0 then
        if i < h.index then 1 else if i < h.index + h.shift then -1 + 2 * h.eps else -1 + 3 * h.eps
      else if h.tag = 1 then
        if h.index ≤ i ∧ i < h.index + h.shift then 1
        else if h.index + h.shift ≤ i ∧ i < h.index + 2 * h.shift then -1 + (h.gap - 1) * h.eps
        else -1 + h.gap * h.eps
      else if i < h.index then -1 + h.eps else 1 - h.eps := by
  have hi' : i < (numbered target).length := by rw [numbered_length]; exact hi
  rw [← bad_margins h target hpm i (numbered target)[i] (List.getElem?_eq_getElem hi')]
  unfold M margins
  rw [List.getD_eq_getElem _ _ (by simpa using hi')]
  simp

theorem edge_M (d : List ℝ) (hd : d.length = target.length) (h : BadClassifier ℝ) :
    Spec.edge (numbered target) d (conf h) = ∑ i ∈ Finset.range target.length, M target h i * d.getD i 0 := by
  rw [LP.edge_sum _ _ _ (by rw [numbered_length, hd]), numbered_length]; rfl

theorem pointMass_getD (n r i : Nat) (hi : i < n) : (pointMass n r : List ℝ).getD i 0 = if i = r then 1 else 0 := by
  unfold pointMass
  rw [List.getD_eq_getElem _ _ (by simpa using hi)]
  simp

theorem edge_pointMass (r : Nat) (hr : r < target.length) (h : BadClassifier ℝ) :
    Spec.edge (numbered target) (pointMass target.length r) (conf h) = M target h r := by
  rw [edge_M target _ (by simp [pointMass])]
  rw [Finset.sum_eq_single r]
  · rw [pointMass_getD _ _ _ hr]; simp
  · intro i hi hne
    rw [pointMass_getD _ _ _ (Finset.mem_range.1 hi), if_neg hne, mul_zero]
  · intro h'; exact absurd (Finset.mem_range.2 hr) h'

theorem edge_uniform (hn : 0 < target.length) (h : BadClassifier ℝ) :
    Spec.edge (numbered target) (List.replicate target.length (1 / (target.length : ℝ))) (conf h) =
      (∑ i ∈ Finset.range target.length, M target h i) / (target.length : ℝ) := by
  rw [edge_M target _ (by simp), Finset.sum_div]
  apply Finset.sum_congr rfl
  intro i hi
  have hi := Finset.mem_range.1 hi
  rw [List.getD_eq_getElem _ _ (by simpa using hi)]
  simp [div_eq_mul_inv]

theorem sum_step (n m : Nat) (hm : m ≤ n) (a b : ℝ) :
    ∑ i ∈ Finset.range n, (if i < m then a else b) = (m : ℝ) * a + ((n : ℝ) - m) * b := by
  obtain ⟨k, rfl⟩ := Nat.exists_eq_add_of_le hm
  rw [Finset.sum_range_add]
  have h1 : ∑ x ∈ Finset.range m, (if x < m then a else b) = (m : ℝ) * a := by
    rw [Finset.sum_congr rfl (g := fun _ => a) (by intro x hx; rw [if_pos (Finset.mem_range.1 hx)])]
    simp
  have h2 : ∑ x ∈ Finset.range k, (if m + x < m then a else b) = (k : ℝ) * b := by
    rw [Finset.sum_congr rfl (g := fun _ => b) (by intro x hx; rw [if_neg (by omega)])]
    simp
  rw [h1, h2]; push_cast; ring

theorem sum_spike_le (n r : Nat) (c : ℝ) (hc : c ≤ 1) :
    ∑ i ∈ Finset.range n, (if i = r then 1 else c) ≤ (n : ℝ) * c + (1 - c) := by
  have : ∀ i, (if i = r then (1 : ℝ) else c) = c + if i = r then 1 - c else 0 := by
    intro i; split <;> ring
  simp only [this, Finset.sum_add_distrib, Finset.sum_ite_eq']
  simp only [Finset.sum_const, Finset.card_range, nsmul_eq_mul]
  split <;> linarith

end

/-- The hypotheses after `t` rounds: the first one, then those of kind 1 in order. -/
noncomputable def prefixOf (n : Nat) (ε : ℝ) : Nat → List (BadClassifier ℝ)
  | 0 => []
  | t + 1 => ⟨0, (n + 1) / 2, 1, 3, ε⟩ ::
      (List.range t).map fun (k : Nat) => ⟨1, (n + 1) / 2 + k, 1, 5 + 2 * (k : ℝ), ε⟩

/-- The hypothesis added in round `t + 1`. -/
noncomputable def nextOf (n : Nat) (ε : ℝ) : Nat → BadClassifier ℝ
  | 0 => ⟨0, (n + 1) / 2, 1, 3, ε⟩
  | t + 1 => ⟨1, (n + 1) / 2 + t, 1, 5 + 2 * (t : ℝ), ε⟩

/-- The distribution round `t + 1` is played with. -/
noncomputable def distOf (n : Nat) : Nat → List ℝ
  | 0 => List.replicate n (1 / (n : ℝ))
  | t + 1 => pointMass n ((n + 1) / 2 + t)

theorem prefixOf_succ (n : Nat) (ε : ℝ) (t : Nat) : prefixOf n ε (t + 1) = prefixOf n ε t ++ [nextOf n ε t] := by
  cases t with
  | zero => simp [prefixOf, nextOf]
  | succ t => simp [prefixOf, nextOf, List.range_succ]

section play
variable (target : List ℝ) (hpm : Spec.PmLabels (numbered target)) (ε : ℝ) (hε : 0 < ε)
  (hε1 : ε * (target.length : ℝ) ≤ 1 / 4)

include hpm hε hε1 in
/-- The learner's answer in round `t + 1`: every other hypothesis has a smaller edge, and the edge is positive. -/
theorem answer (t : Nat) (ht : t < target.length / 2) :
    nextOf target.length ε t ∈ Spec.badHypotheses target.length 1 ε ∧
    0 < Spec.edge (numbered target) (distOf target.length t) (conf (nextOf target.length ε t)) ∧
    ∀ g ∈ Spec.badHypotheses target.length 1 ε, g ≠ nextOf target.length ε t →
      Spec.edge (numbered target) (distOf target.length t) (conf g) <
        Spec.edge (numbered target) (distOf target.length t) (conf (nextOf target.length ε t)) := by
  set n := target.length with hn
  have hn2 : 2 ≤ n := by omega
  have hnr : (2 : ℝ) ≤ n := by exact_mod_cast hn2
  have hε' : ε ≤ 1 / 8 := by nlinarith
  have hgap : ∀ k : Nat, k < (n + 1) / 2 - 1 → (5 + 2 * (k : ℝ)) * ε ≤ 1 / 2 - ε := by
    intro k hk
    have : 5 + 2 * k + 1 ≤ 2 * n := by omega
    have h' : (5 + 2 * (k : ℝ)) + 1 ≤ 2 * n := by exact_mod_cast this
    nlinarith
  cases t with
  | zero =>
    have hpos : (0 : ℝ) < n := by linarith
    have e0 : 0 < ∑ i ∈ Finset.range n, M target ⟨0, (n + 1) / 2, 1, 3, ε⟩ i := by
      have : ∑ i ∈ Finset.range n, (if i < (n + 1) / 2 then (1 : ℝ) else -1 + 2 * ε) ≤
          ∑ i ∈ Finset.range n, M target ⟨0, (n + 1) / 2, 1, 3, ε⟩ i := by
        apply Finset.sum_le_sum
        intro i hi
        rw [M_eq target hpm _ i (Finset.mem_range.1 hi)]
        simp only [if_true]
        split_ifs <;> linarith
      refine lt_of_lt_of_le ?_ this
      rw [sum_step _ _ (by omega)]
      have a1 : (n : ℝ) ≤ 2 * (((n + 1) / 2 : Nat) : ℝ) := by
        have : n ≤ 2 * ((n + 1) / 2) := by omega
        exact_mod_cast this
      have a2 : (((n + 1) / 2 : Nat) : ℝ) + 1 ≤ n := by
        have : (n + 1) / 2 + 1 ≤ n := by omega
        exact_mod_cast this
      nlinarith
    have e2 : ∑ i ∈ Finset.range n, M target ⟨2, (n + 1) / 2, 1, 3 + 2 * (((n + 1) / 2 - 1 : Nat) : ℝ), ε⟩ i ≤ 0 := by
      rw [Finset.sum_congr rfl (g := fun i => if i < (n + 1) / 2 then -1 + ε else 1 - ε)
        (by intro i hi; rw [M_eq target hpm _ i (Finset.mem_range.1 hi)]; simp), sum_step _ _ (by omega)]
      have a1 : (n : ℝ) ≤ 2 * (((n + 1) / 2 : Nat) : ℝ) := by
        have : n ≤ 2 * ((n + 1) / 2) := by omega
        exact_mod_cast this
      nlinarith
    have e1 : ∀ k : Nat, k < (n + 1) / 2 - 1 →
        ∑ i ∈ Finset.range n, M target ⟨1, (n + 1) / 2 + k, 1, 5 + 2 * (k : ℝ), ε⟩ i ≤ 0 := by
      intro k hk
      have hg := hgap k hk
      have h3 : (3 : ℝ) ≤ n := by
        have : 3 ≤ n := by omega
        exact_mod_cast this
      have hk0 : (0 : ℝ) ≤ k := by positivity
      calc _ ≤ ∑ i ∈ Finset.range n, (if i = (n + 1) / 2 + k then (1 : ℝ) else -1 + (5 + 2 * (k : ℝ)) * ε) := by
            apply Finset.sum_le_sum
            intro i hi
            rw [M_eq target hpm _ i (Finset.mem_range.1 hi)]
            simp only [one_ne_zero, if_false, if_true]
            split_ifs <;> first | omega | nlinarith
        _ ≤ _ := sum_spike_le _ _ _ (by linarith)
        _ ≤ 0 := by nlinarith
    refine ⟨by simp [Spec.badHypotheses, nextOf], ?_, ?_⟩
    · simp only [distOf, nextOf, hn]
      rw [edge_uniform _ (by omega)]
      exact div_pos e0 (by rw [← hn]; exact hpos)
    · intro g hg hne
      simp only [distOf, nextOf, hn]
      rw [edge_uniform _ (by omega), edge_uniform _ (by omega)]
      apply div_lt_div_of_pos_right _ (by rw [← hn]; exact hpos)
      rw [← hn]
      refine lt_of_le_of_lt ?_ e0
      simp only [Spec.badHypotheses, List.mem_append, List.mem_singleton, List.mem_map, List.mem_range] at hg
      rcases hg with (rfl | ⟨k, hk, rfl⟩) | rfl
      · exact absurd rfl hne
      · exact e1 k hk
      · exact e2
  | succ t =>
    have hr : (n + 1) / 2 + t < target.length := by omega
    have hM : M target (nextOf n ε (t + 1)) ((n + 1) / 2 + t) = 1 := by
      rw [M_eq target hpm _ _ hr]
      simp [nextOf]
    refine ⟨?_, ?_, ?_⟩
    · simp only [Spec.badHypotheses, nextOf, List.mem_append, List.mem_map, List.mem_range]
      exact Or.inl (Or.inr ⟨t, by omega, rfl⟩)
    · simp only [distOf]
      rw [hn, edge_pointMass _ _ (by rw [← hn]; exact hr), ← hn, hM]; norm_num
    · intro g hg hne
      simp only [distOf]
      rw [hn, edge_pointMass _ _ (by rw [← hn]; exact hr), edge_pointMass _ _ (by rw [← hn]; exact hr), ← hn, hM,
        M_eq target hpm _ _ hr]
      simp only [Spec.badHypotheses, List.mem_append, List.mem_singleton, List.mem_map, List.mem_range] at hg
      rcases hg with (rfl | ⟨k, hk, rfl⟩) | rfl
      · simp only [if_true]
        split_ifs <;> first | omega | linarith
      · have hkt : k ≠ t := by rintro rfl; exact hne rfl
        have hg := hgap k hk
        simp only [one_ne_zero, if_false, if_true]
        split_ifs <;> first | omega | nlinarith
      · simp only [show (2 : Nat) ≠ 0 by decide, show (2 : Nat) ≠ 1 by decide, if_false]
        split_ifs <;> linarith

include hpm hε hε1 in
/-- The linear program after `t + 1 ≤ n / 2` rounds has one solution: the point mass on the next row; its value is
`-1 + 2 (t + 1) ε`. -/
theorem solution (t : Nat) (ht : t < target.length / 2) (d w : List ℝ) (γ : ℝ)
    (hp : Spec.HardMarginPair (numbered target) (prefixOf target.length ε (t + 1)) d w γ) :
    γ ≤ -1 + 2 * ((t : ℝ) + 1) * ε ∧ d = distOf target.length (t + 1) := by
  set n := target.length with hn
  have hr : (n + 1) / 2 + t < target.length := by omega
  have htn : 2 * ((t : ℝ) + 1) ≤ n := by
    have : 2 * (t + 1) ≤ n := by omega
    exact_mod_cast this
  have hdl : d.length = n := by rw [hp.dlen, numbered_length, hn]
  -- the value
  have hγ : γ ≤ -1 + 2 * ((t : ℝ) + 1) * ε := by
    have h1 := LP.le_edge_of_margins (numbered target) (pointMass n ((n + 1) / 2 + t)) (by simp [pointMass, numbered_length, hn])
      ⟨by intro p hp'; simp only [pointMass, List.mem_map] at hp'; obtain ⟨i, -, rfl⟩ := hp'; split <;> norm_num, by
        rw [LP.sum_getD, show (pointMass n ((n + 1) / 2 + t) : List ℝ).length = n by simp [pointMass],
          Finset.sum_congr rfl (fun i hi => pointMass_getD n _ i (Finset.mem_range.1 hi))]
        rw [Finset.sum_ite_eq', if_pos (Finset.mem_range.2 hr)]⟩ _ γ hp.margins
    refine h1.trans ?_
    apply LP.vote_edge_le (numbered target) _ _ w hp.wlen hp.wprob
    intro h hh
    rw [hn, edge_pointMass _ _ (by rw [← hn]; exact hr), ← hn, M_eq target hpm _ _ hr]
    have ht0 : (0 : ℝ) ≤ t := by positivity
    simp only [prefixOf, List.mem_cons, List.mem_map, List.mem_range] at hh
    rcases hh with rfl | ⟨k, hk, rfl⟩
    · simp only [if_true]
      split_ifs
      · omega
      · nlinarith
      · have : (1 : ℝ) ≤ t := by
          have : 1 ≤ t := by omega
          exact_mod_cast this
        nlinarith
    · simp only [one_ne_zero, if_false, if_true]
      split_ifs
      · omega
      · have : k + 1 = t := by omega
        have : (k : ℝ) + 1 = t := by exact_mod_cast this
        rw [← this]; nlinarith
      · have : k + 2 ≤ t := by omega
        have : (k : ℝ) + 2 ≤ t := by exact_mod_cast this
        nlinarith
  refine ⟨hγ, ?_⟩
  -- the distribution
  have hlast : nextOf n ε t ∈ prefixOf n ε (t + 1) := by rw [prefixOf_succ]; simp
  have he := (hp.edges _ hlast).trans hγ
  rw [edge_M target d (by rw [hdl]), ← hn] at he
  have hd0 : ∀ i, 0 ≤ d.getD i 0 := by
    intro i
    rcases lt_or_ge i d.length with h | h
    · rw [List.getD_eq_getElem _ _ h]; exact hp.dprob.1 _ (List.getElem_mem _)
    · rw [List.getD_eq_default _ _ h]
  have hd1 : ∑ i ∈ Finset.range n, d.getD i 0 = 1 := by
    rw [← hdl, ← LP.sum_getD]; exact hp.dprob.2
  set v := -1 + 2 * ((t : ℝ) + 1) * ε with hv
  have hε4 : 2 * ((t : ℝ) + 1) * ε + ε ≤ 1 / 2 := by
    have : (1 : ℝ) ≤ n := by
      have : 1 ≤ n := by omega
      exact_mod_cast this
    nlinarith
  have hMr : M target (nextOf n ε t) ((n + 1) / 2 + t) = v := by
    cases t with
    | zero =>
      rw [show nextOf n ε 0 = ⟨0, (n + 1) / 2, 1, 3, ε⟩ from rfl, M_eq target hpm _ _ hr]
      simp [hv]
    | succ t =>
      rw [show nextOf n ε (t + 1) = ⟨1, (n + 1) / 2 + t, 1, 5 + 2 * (t : ℝ), ε⟩ from rfl, M_eq target hpm _ _ hr]
      simp only [one_ne_zero, if_false, if_true]
      rw [if_neg (by omega), if_pos (by omega), hv]
      push_cast; ring
  have hMo : ∀ i < n, i ≠ (n + 1) / 2 + t → v + ε ≤ M target (nextOf n ε t) i := by
    intro i hi hne
    cases t with
    | zero =>
      rw [show nextOf n ε 0 = ⟨0, (n + 1) / 2, 1, 3, ε⟩ from rfl, M_eq target hpm _ _ hi]
      simp only [if_true, hv]
      simp only [Nat.cast_zero] at hε4 ⊢
      split_ifs <;> first | omega | linarith
    | succ t =>
      rw [show nextOf n ε (t + 1) = ⟨1, (n + 1) / 2 + t, 1, 5 + 2 * (t : ℝ), ε⟩ from rfl, M_eq target hpm _ _ hi]
      simp only [one_ne_zero, if_false, if_true, hv]
      push_cast at hε4 ⊢
      split_ifs <;> first | omega | linarith
  -- `Σ (M i - v) d_i ≤ 0`, all terms nonnegative
  have hsum : ∑ i ∈ Finset.range n, (M target (nextOf n ε t) i - v) * d.getD i 0 ≤ 0 := by
    have : ∑ i ∈ Finset.range n, (M target (nextOf n ε t) i - v) * d.getD i 0 =
        ∑ i ∈ Finset.range n, M target (nextOf n ε t) i * d.getD i 0 - v * ∑ i ∈ Finset.range n, d.getD i 0 := by
      rw [Finset.mul_sum, ← Finset.sum_sub_distrib]
      apply Finset.sum_congr rfl; intro i _; ring
    rw [this, hd1]; linarith
  have hnn : ∀ i ∈ Finset.range n, 0 ≤ (M target (nextOf n ε t) i - v) * d.getD i 0 := by
    intro i hi
    by_cases h : i = (n + 1) / 2 + t
    · rw [h, hMr]; simp
    · exact mul_nonneg (by have := hMo i (Finset.mem_range.1 hi) h; linarith) (hd0 i)
  have hzero := (Finset.sum_eq_zero_iff_of_nonneg hnn).1 (le_antisymm hsum (Finset.sum_nonneg hnn))
  have hother : ∀ i < n, i ≠ (n + 1) / 2 + t → d.getD i 0 = 0 := by
    intro i hi hne
    rcases mul_eq_zero.1 (hzero i (Finset.mem_range.2 hi)) with h | h
    · have := hMo i hi hne; linarith
    · exact h
  have hself : d.getD ((n + 1) / 2 + t) 0 = 1 := by
    rw [Finset.sum_eq_single ((n + 1) / 2 + t)] at hd1
    · exact hd1
    · intro i hi hne; exact hother i (Finset.mem_range.1 hi) hne
    · intro h; exact absurd (Finset.mem_range.2 hr) h
  apply List.ext_getElem
  · simp [distOf, pointMass, hdl]
  · intro i h1 h2
    have h3 : i < n := by rw [← hdl]; exact h1
    have e1 := List.getD_eq_getElem d 0 h1
    simp only [distOf, pointMass, List.getElem_map, List.getElem_range]
    rw [← e1]
    split_ifs with h
    · rw [h]; exact hself
    · exact hother i h3 h

end play

end Bad

/-- C76: the worst-case learner is a worst case for LPBoost.  On every sample with labels `±1`, whatever solver of
linear programs is used and whatever `nu` was set for LPBoost, LPBoost with the worst-case learner (`nu = 1`) needs
more than `n / 2` calls of the weak learner; the first is made with the uniform distribution and each of the next
`n / 2` with all weight on a single row, one row after another.  (Any tolerance of the learner in `(0, 1/2]`, any of
LPBoost up to `3/4`.) -/
theorem lpboost_worst_case (target : List ℝ) (hpm : Spec.PmLabels (numbered target)) (τ : ℝ) (h0 : 0 < τ) (h1 : τ ≤ 1 / 2)
    (b : BadBaseLearner ℝ) (hb : BadBaseLearner.new target.length τ 1 = .ok b) (wl : WeakLearner ℝ (BadClassifier ℝ))
    (hwl : ∀ k d, b.produce target d = .ok (wl k d)) (solver : Solver ℝ) (hsolver : solver.Correct)
    (s₀ : LPBoost ℝ (BadClassifier ℝ)) (hn : s₀.nSample = target.length) (htol : s₀.tolerance ≤ 3 / 4)
    (fuel : Nat) (f : WeightedMajority ℝ (BadClassifier ℝ)) (qs : List (List ℝ))
    (hrun : (LPBoost.booster solver (numbered target)).run wl fuel s₀ = some (.ok (f, qs))) :
    target.length / 2 + 1 ≤ qs.length ∧
      qs[0]? = some (List.replicate target.length (1 / (target.length : ℝ))) ∧
      ∀ t < target.length / 2, qs[t + 1]? = some (pointMass target.length ((target.length + 1) / 2 + t)) := by
  set n := target.length with hnn
  have hn0 : n ≠ 0 := by
    intro h
    rw [bad_new_spec, if_pos h] at hb; cases hb
  have hnpos : (0 : ℝ) < n := by exact_mod_cast Nat.pos_of_ne_zero hn0
  set ε := τ / (2 * (n : ℝ)) with hε
  have hε0 : 0 < ε := by rw [hε]; positivity
  have hε1 : ε * (n : ℝ) ≤ 1 / 4 := by
    have : ε * (n : ℝ) = τ / 2 := by rw [hε]; field_simp
    rw [this]; linarith
  rw [bad_new_ok n hn0 τ 1 (by linarith), Except.ok.injEq] at hb
  simp only [Int.ceil_one, Int.toNat_one] at hb
  -- the learner's answers
  have hans : ∀ k t, t < n / 2 → wl k (Bad.distOf n t) = Bad.nextOf n ε t := by
    intro k t ht
    obtain ⟨a1, a2, a3⟩ := Bad.answer target hpm ε hε0 hε1 t ht
    obtain ⟨h, l1, l2, p1, p2, p3, p4⟩ := bad_produce_max_edge b (by rw [← hb]; simp [Spec.badHypotheses]) target (Bad.distOf n t)
    have e : wl k (Bad.distOf n t) = h := by
      have := hwl k (Bad.distOf n t)
      rw [p1, Except.ok.injEq] at this; exact this.symm
    rw [e]
    by_contra hne
    have hm : h ∈ b.classifiers := by rw [p2]; simp
    have hlt := a3 h (by rw [← hb] at hm; exact hm) hne
    have hm2 : Bad.nextOf n ε t ∈ b.classifiers := by rw [← hb]; exact a1
    rw [p2] at hm2
    rcases List.mem_append.1 hm2 with hm2 | hm2
    · exact absurd (p3 _ hm2) (not_le.2 hlt)
    · rcases List.mem_cons.1 hm2 with hm2 | hm2
      · exact hne hm2.symm
      · exact absurd (p4 _ hm2).le (not_le.2 hlt)
  have hSlen : s₀.nSample = (numbered target).length := by rw [Bad.numbered_length]; exact hn
  -- one round
  have hstep : ∀ {t qs s}, LPInv (numbered target) s₀ t qs s → t < n / 2 → s.hypotheses = Bad.prefixOf n ε t →
      s.dist = Bad.distOf n t → 0 < s.gammaHat →
      ∃ out, LPBoost.boost solver (numbered target) s wl (t + 1) = .ok out ∧ out.flow = .cont ∧
        out.state.hypotheses = Bad.prefixOf n ε (t + 1) ∧ out.state.dist = Bad.distOf n (t + 1) ∧ 0 < out.state.gammaHat := by
    intro t qs s hi ht hh hd hg
    obtain ⟨out, γ, d, w, g1, g2, g3, g4, g5, -, g6⟩ := lp_step hi hsolver wl
    rw [hd, hans _ t ht, hh, ← Bad.prefixOf_succ] at g3
    rw [hd, hans _ t ht, hh, ← Bad.prefixOf_succ] at g4
    rw [hd, hans _ t ht] at g5
    obtain ⟨b1, b2⟩ := Bad.solution target hpm ε hε0 hε1 t ht d w γ g3
    have hgh : 0 < out.state.gammaHat := by
      rw [g5]; exact lt_min (Bad.answer target hpm ε hε0 hε1 t ht).2.1 hg
    have htn : 2 * ((t : ℝ) + 1) ≤ n := by
      have : 2 * (t + 1) ≤ n := by omega
      exact_mod_cast this
    rcases g6 with g6 | g6
    · exfalso
      have := g6.2.1
      nlinarith
    · exact ⟨out, g1, g6.1, g4, by rw [g6.2.2.1, b2], hgh⟩
  -- the invariant
  have hinv : ∀ {t qs s}, (LPBoost.booster solver (numbered target)).Reachable wl s₀ t qs s →
      (t ≤ n / 2 → s.hypotheses = Bad.prefixOf n ε t ∧ s.dist = Bad.distOf n t ∧ 0 < s.gammaHat) ∧
      ∀ j ≤ n / 2, j < t → qs[j]? = some (Bad.distOf n j) := by
    intro t qs s hr
    induction hr with
    | start h =>
      have hi := lp_start hSlen h
      refine ⟨fun _ => ⟨?_, ?_, ?_⟩, by intro j _ hj; omega⟩
      · rw [List.length_eq_zero_iff.1 hi.hlen]; rfl
      · unfold LPBoost.booster LPBoost.preprocess at h
        simp only [] at h
        split at h
        · cases h
        · split at h
          · cases h
          · rw [Except.ok.injEq] at h
            subst h
            simp only [Bad.numbered_length, Bad.distOf, hn, ← hnn]
      · rcases hi.hat_mem with h' | h'
        · rw [h']; norm_num
        · rw [List.length_eq_zero_iff.1 hi.hlen] at h'; simp [Spec.edges] at h'
    | @step t qs s₁ out hr hb' hf ih =>
      have hi := lp_inv hSlen hsolver hr
      have hq : out.queries = [s₁.dist] := by
        obtain ⟨out', γ, d, w, g1, g2, -⟩ := lp_step hi hsolver wl
        rw [show LPBoost.boost solver (numbered target) s₁ wl (t + 1) = .ok out from hb', Except.ok.injEq] at g1
        rw [g1]; exact g2
      constructor
      · intro ht
        obtain ⟨a1, a2, a3⟩ := ih.1 (by omega)
        obtain ⟨out', c1, c2, c3, c4, c5⟩ := hstep hi (by omega) a1 a2 a3
        rw [show LPBoost.boost solver (numbered target) s₁ wl (t + 1) = .ok out from hb', Except.ok.injEq] at c1
        subst c1
        exact ⟨c3, c4, c5⟩
      · intro j hj hlt
        rcases Nat.lt_or_ge j t with h | h
        · rw [List.getElem?_append_left (by rw [hi.qlen]; exact h)]
          exact ih.2 j hj h
        · have : j = t := by omega
          subst this
          rw [List.getElem?_append_right (by rw [hi.qlen]), hi.qlen, hq, (ih.1 hj).2.1]
          simp
  obtain ⟨t, qs', s', out, k, r1, r0, r2, r3, r5, r6⟩ := (LPBoost.booster solver (numbered target)).run_spec wl s₀ hrun
  have hi := lp_inv hSlen hsolver r1
  obtain ⟨i1, i2⟩ := hinv r1
  have hq : out.queries = [s'.dist] := by
    obtain ⟨out', γ, d, w, g1, g2, -⟩ := lp_step hi hsolver wl
    rw [show LPBoost.boost solver (numbered target) s' wl (t + 1) = .ok out from r2, Except.ok.injEq] at g1
    rw [g1]; exact g2
  have hge : n / 2 ≤ t := by
    by_contra hlt
    push Not at hlt
    obtain ⟨a1, a2, a3⟩ := i1 (by omega)
    obtain ⟨out', c1, c2, -⟩ := hstep hi hlt a1 a2 a3
    rw [show LPBoost.boost solver (numbered target) s' wl (t + 1) = .ok out from r2, Except.ok.injEq] at c1
    rw [c1, c2] at r3; cases r3
  have hall : ∀ j ≤ n / 2, qs[j]? = some (Bad.distOf n j) := by
    intro j hj
    rw [r5, hq]
    rcases Nat.lt_or_ge j t with h | h
    · rw [List.getElem?_append_left (by rw [hi.qlen]; exact h)]
      exact i2 j hj h
    · have : j = t := by omega
      subst this
      rw [List.getElem?_append_right (by rw [hi.qlen]), hi.qlen, (i1 hj).2.1]
      simp
  refine ⟨?_, hall 0 (by omega), fun t ht => hall (t + 1) (by omega)⟩
  rw [r5, hq, List.length_append, hi.qlen, List.length_singleton]; omega

/-- C76: such runs end, so the number of calls is between `n / 2 + 1` and `n / 2 + 3`, and no convex combination of
the learner's hypotheses has a smallest margin that beats the result's by more than LPBoost's tolerance. -/
theorem lpboost_worst_case_ends (target : List ℝ) (hpm : Spec.PmLabels (numbered target))
    (hvalid : checkBinary (numbered target) = .ok ()) (τ : ℝ) (h0 : 0 < τ) (h1 : τ ≤ 1 / 2)
    (b : BadBaseLearner ℝ) (hb : BadBaseLearner.new target.length τ 1 = .ok b) (wl : WeakLearner ℝ (BadClassifier ℝ))
    (hwl : ∀ k d, b.produce target d = .ok (wl k d)) (solver : Solver ℝ) (hsolver : solver.Correct)
    (s₀ : LPBoost ℝ (BadClassifier ℝ)) (hn : s₀.nSample = target.length) (htol0 : 0 ≤ s₀.tolerance)
    (htol : s₀.tolerance ≤ 3 / 4) (hnu : 1 ≤ s₀.nu) (hnu' : s₀.nu ≤ (target.length : ℝ)) :
    ∃ f qs, (LPBoost.booster solver (numbered target)).run wl ((target.length + 1) / 2 + 2) s₀ = some (.ok (f, qs)) ∧
      target.length / 2 + 1 ≤ qs.length ∧ qs.length ≤ (target.length + 1) / 2 + 2 ∧
      ∀ v : List (ℝ × BadClassifier ℝ), (∀ p ∈ v, 0 ≤ p.1 ∧ p.2 ∈ b.classifiers) → (v.map Prod.fst).sum = 1 →
        ∀ ρ : ℝ, (∀ e ∈ numbered target, ρ ≤ e.2 * Spec.vote conf v e.1) →
          ∀ e ∈ numbered target, ρ - s₀.tolerance ≤ e.2 * conf f e.1 := by
  have hSlen : s₀.nSample = (numbered target).length := by rw [Bad.numbered_length]; exact hn
  have hn0 : target.length ≠ 0 := by
    intro h
    rw [bad_new_spec, if_pos h] at hb; cases hb
  have hb' := hb
  rw [bad_new_ok _ hn0 τ 1 (by linarith), Except.ok.injEq] at hb'
  have hne : b.classifiers ≠ [] := by rw [← hb']; simp [Spec.badHypotheses]
  have hlen : b.classifiers.length + 1 = (target.length + 1) / 2 + 2 := by
    rw [← hb']; simp [Spec.badHypotheses]; omega
  have hmem : ∀ k d, wl k d ∈ b.classifiers := by
    intro k d
    obtain ⟨h, l1, l2, p1, p2, -, -⟩ := bad_produce_max_edge b hne target d
    have := hwl k d
    rw [p1, Except.ok.injEq] at this
    rw [p2, this]; simp
  obtain ⟨f, qs, hrun⟩ := lpboost_returns (numbered target) s₀ hSlen htol0 hvalid hnu
    (by rw [Bad.numbered_length]; exact hnu') solver hsolver wl b.classifiers hmem
  obtain ⟨r, hr1, hr2⟩ := lpboost_terminates (numbered target) s₀ hSlen htol0 solver hsolver wl b.classifiers hmem
  rw [hlen] at hrun hr1 hr2
  have hle : qs.length ≤ (target.length + 1) / 2 + 2 := by
    rw [hrun, Option.some.injEq] at hr1
    exact hr2 f qs hr1.symm
  refine ⟨f, qs, hrun, (lpboost_worst_case target hpm τ h0 h1 b hb wl hwl solver hsolver s₀ hn htol _ f qs hrun).1, hle, ?_⟩
  intro v hv hv1 ρ hρ
  refine lpboost_near_optimal (numbered target) s₀ hSlen hpm solver hsolver wl {h | h ∈ b.classifiers} ?_ ?_ _ f qs hrun v hv
    hv1 ρ hρ
  · intro h hh e he
    have := bad_confidence_range target.length τ 1 h0.le (by linarith) b hb h hh e.1.1 e.1.2 (by
      have hy := hpm e he
      unfold numbered at he
      rw [List.mem_mapIdx] at he
      obtain ⟨i, hi, rfl⟩ := he
      exact hy)
    exact this
  · intro k d _ _ h hh
    obtain ⟨g, l1, l2, p1, p2, p3, p4⟩ := bad_produce_max_edge b hne target d
    have e := hwl k d
    rw [p1, Except.ok.injEq] at e
    rw [← e]
    simp only [Set.mem_setOf_eq] at hh
    rw [p2] at hh
    rcases List.mem_append.1 hh with hh | hh
    · exact p3 h hh
    · rcases List.mem_cons.1 hh with rfl | hh
      · exact le_rfl
      · exact (p4 h hh).le

/-- The hypotheses are met, for every number of examples of each label: a sample, a learner, a solver. -/
example (m : Nat) : ∃ (target : List ℝ) (b : BadBaseLearner ℝ) (wl : WeakLearner ℝ (BadClassifier ℝ)) (solver : Solver ℝ) (f : _)
    (qs : List (List ℝ)), target.length = 2 * (m + 2) ∧
    (LPBoost.booster solver (numbered target)).run wl (m + 4) (LPBoost.init (numbered target)) = some (.ok (f, qs)) ∧
    m + 3 ≤ qs.length := by
  obtain ⟨solver, hsolver⟩ := exists_correct_solver
  set target : List ℝ := List.replicate (m + 2) 1 ++ List.replicate (m + 2) (-1) with ht
  have hlen : target.length = 2 * (m + 2) := by simp [ht]; ring
  have hmap : (numbered target).map Prod.snd = target := by
    apply List.ext_getElem <;> simp [numbered]
  have hpm : Spec.PmLabels (numbered target) := by
    intro e he
    have : e.2 ∈ target := by rw [← hmap]; exact List.mem_map_of_mem he
    rw [ht] at this
    rcases List.mem_append.1 this with h | h
    · left; exact List.eq_of_mem_replicate h
    · right; exact List.eq_of_mem_replicate h
  have hvalid : checkBinary (numbered target) = .ok () := by
    unfold checkBinary isValidBinary
    rw [hmap, Bad.numbered_length, if_neg (by simp)]
    have e1 : trunc (1 : ℝ) = 1 := by simp [trunc]
    have e2 : trunc (-1 : ℝ) = -1 := by
      unfold trunc
      rw [if_neg (by norm_num), Int.ceil_eq_iff]
      norm_num
    rw [if_neg, if_neg]
    · simp only [ht, List.map_append, List.map_replicate, asI32, e1, e2]
      rw [not_not, ← List.card_toFinset, List.toFinset_append, List.toFinset_replicate_of_ne_zero (by omega),
        List.toFinset_replicate_of_ne_zero (by omega)]
      rfl
    · simp only [Bool.not_eq_true, List.any_eq_false, ht, List.mem_append, decide_eq_true_eq]
      rintro y (h | h)
      · rw [List.eq_of_mem_replicate h, e1]; simp
      · rw [List.eq_of_mem_replicate h, e2]; simp
  have hb := bad_new_ok target.length (by omega) (1 / 2 : ℝ) 1 (by norm_num)
  set b : BadBaseLearner ℝ := ⟨Spec.badHypotheses target.length ⌈(1 : ℝ)⌉.toNat (1 / 2 / (2 * (target.length : ℝ)))⟩
  have hex : ∀ d, ∃ h, b.produce target d = .ok h := by
    intro d
    obtain ⟨h, -, -, p, -⟩ := bad_produce_max_edge b (by simp [b, Spec.badHypotheses]) target d
    exact ⟨h, p⟩
  choose g hg using hex
  have hl1 : (1 : ℝ) ≤ target.length := by
    rw [hlen]; push_cast
    have : (0 : ℝ) ≤ m := by positivity
    linarith
  obtain ⟨f, qs, r1, r2, -⟩ := lpboost_worst_case_ends target hpm hvalid (1 / 2) (by norm_num) le_rfl b hb (fun _ d => g d)
    (fun _ d => hg d) solver hsolver (LPBoost.init (numbered target)) (by simp [LPBoost.init, Bad.numbered_length])
    (by simp [LPBoost.init]) (by
      simp only [LPBoost.init, Bad.numbered_length]
      rw [div_le_iff₀ (by linarith), hlen]; push_cast
      have : (0 : ℝ) ≤ m := by positivity
      linarith) (by simp [LPBoost.init]) (by simpa [LPBoost.init] using hl1)
  refine ⟨target, b, fun _ d => g d, solver, f, qs, hlen, ?_, by omega⟩
  rw [← r1]; congr 1; omega

end Miniboosts.Props
