import Verif.Lemmas.GammaExists

/-! # Programs over distributions (the inner programs of SoftBoost) -/

namespace Miniboosts

open LP

/-- For a separable convex program an optimal pair beats every feasible point, by at least the quadratic part of the
difference. -/
theorem Program.Optimal.gap {p : Program ℝ} {s : Solution ℝ} (ho : p.Optimal s) (a : Nat → ℝ)
    (hP : ∀ (x : List ℝ) j, j < p.A.nCols → p.P.tmulVec x j = a j * x.getD j 0) (hPn : p.P.nCols = p.A.nCols)
    (hA : p.A.WellFormed) (hc : (Program.isEq p.cones).length = p.A.nRows) (x : List ℝ) (hx : p.Feasible x) :
    p.objective s.x + ∑ j ∈ Finset.range p.A.nCols, a j * (x.getD j 0 - s.x.getD j 0) ^ 2 / 2 ≤ p.objective x := by
  have hobj : ∀ y : List ℝ, y.length = p.A.nCols → p.objective y =
      ∑ j ∈ Finset.range p.A.nCols, (p.q.getD j 0 * y.getD j 0 + a j * y.getD j 0 ^ 2 / 2) := by
    intro y hy
    unfold Program.objective
    rw [zipWith_mul_sum, sum_range_list, hy, hPn, Finset.sum_add_distrib, ← Finset.sum_div]
    congr 2
    apply Finset.sum_congr rfl
    intro j hj
    rw [hP y j (Finset.mem_range.1 hj)]; ring
  have hrows := fun j hj => (hA.rows j hj).2
  have h1 : p.objective x - p.objective s.x - ∑ j ∈ Finset.range p.A.nCols, a j * (x.getD j 0 - s.x.getD j 0) ^ 2 / 2 =
      ∑ j ∈ Finset.range p.A.nCols, s.x.getD j 0 * p.A.tmulVec s.z j - ∑ j ∈ Finset.range p.A.nCols, x.getD j 0 * p.A.tmulVec s.z j := by
    rw [hobj x hx.1, hobj s.x ho.feasible.1, ← Finset.sum_sub_distrib, ← Finset.sum_sub_distrib, ← Finset.sum_sub_distrib]
    apply Finset.sum_congr rfl
    intro j hj
    have hj' := Finset.mem_range.1 hj
    have := ho.stationary j hj'
    rw [hP _ j hj'] at this
    have e : p.A.tmulVec s.z j = -(a j * s.x.getD j 0 + p.q.getD j 0) := by linarith
    rw [e]; ring
  rw [p.A.swap hrows, p.A.swap hrows] at h1
  have hsl : ∀ y : List ℝ, ∑ i ∈ Finset.range p.A.nRows, s.z.getD i 0 * p.slack y i =
      ∑ i ∈ Finset.range p.A.nRows, s.z.getD i 0 * p.b.getD i 0 -
        ∑ i ∈ Finset.range p.A.nRows, s.z.getD i 0 * p.A.mulVec y i := by
    intro y
    rw [← Finset.sum_sub_distrib]
    exact Finset.sum_congr rfl fun i _ => by unfold Program.slack; ring
  have hcomp := ho.compl
  rw [sum_range_list, hsl] at hcomp
  have h2 := hsl x
  have h3 : 0 ≤ ∑ i ∈ Finset.range p.A.nRows, s.z.getD i 0 * p.slack x i := by
    apply Finset.sum_nonneg
    intro i hi
    have hi := Finset.mem_range.1 hi
    obtain ⟨b, hb⟩ : ∃ b, (Program.isEq p.cones)[i]? = some b := ⟨_, List.getElem?_eq_getElem (by omega)⟩
    have h1 := hx.2 i b hb
    cases b with
    | true => rw [h1.1 rfl, mul_zero]
    | false => exact mul_nonneg (ho.dual i hb) (h1.2 rfl)
  linarith

/-- A strictly convex separable program has at most one optimal point. -/
theorem Program.Optimal.unique {p : Program ℝ} {s t : Solution ℝ} (hs : p.Optimal s) (ht : p.Optimal t) (a : Nat → ℝ)
    (ha : ∀ j, j < p.A.nCols → 0 < a j)
    (hP : ∀ (x : List ℝ) j, j < p.A.nCols → p.P.tmulVec x j = a j * x.getD j 0) (hPn : p.P.nCols = p.A.nCols)
    (hA : p.A.WellFormed) (hc : (Program.isEq p.cones).length = p.A.nRows) : s.x = t.x ∧ s.objVal = t.objVal := by
  have h1 := hs.gap a hP hPn hA hc t.x ht.feasible
  have h2 := ht.gap a hP hPn hA hc s.x hs.feasible
  have hnn : ∀ (f : Nat → ℝ), ∀ j ∈ Finset.range p.A.nCols, 0 ≤ a j * f j ^ 2 / 2 := by
    intro f j hj
    have := ha j (Finset.mem_range.1 hj)
    positivity
  have h3 := Finset.sum_nonneg (hnn fun j => t.x.getD j 0 - s.x.getD j 0)
  have h4 := Finset.sum_nonneg (hnn fun j => s.x.getD j 0 - t.x.getD j 0)
  have h5 : ∑ j ∈ Finset.range p.A.nCols, a j * (t.x.getD j 0 - s.x.getD j 0) ^ 2 / 2 = 0 := by linarith
  have hl : s.x.length = t.x.length := by rw [hs.feasible.1, ht.feasible.1]
  have hx : s.x = t.x := by
    apply List.ext_getElem hl
    intro j hj hj'
    have hjn : j < p.A.nCols := by rw [← hs.feasible.1]; exact hj
    have h6 := (Finset.sum_eq_zero_iff_of_nonneg (hnn fun j => t.x.getD j 0 - s.x.getD j 0)).1 h5 j (Finset.mem_range.2 hjn)
    have h7 := ha j hjn
    have h8 : (t.x.getD j 0 - s.x.getD j 0) ^ 2 = 0 := by
      by_contra hne
      have : 0 < (t.x.getD j 0 - s.x.getD j 0) ^ 2 := lt_of_le_of_ne (sq_nonneg _) (Ne.symm hne)
      have : 0 < a j * (t.x.getD j 0 - s.x.getD j 0) ^ 2 / 2 := by positivity
      linarith
    have h9 := pow_eq_zero_iff (two_ne_zero) |>.1 h8
    simp only [List.getD_eq_getElem?_getD, List.getElem?_eq_getElem hj, List.getElem?_eq_getElem hj', Option.getD_some] at h9
    linarith
  exact ⟨hx, by rw [hs.value, ht.value, hx]⟩

theorem distQuadratic_tmulVec (quad : List ℝ) (x : List ℝ) (n i : Nat) (hi : i < quad.length) :
    (distQuadratic n quad).tmulVec x i = quad.getD i 0 * x.getD i 0 := by
  have h1 : (List.range quad.length ++ [quad.length]).getD i 0 = i := by
    rw [List.getD_append _ _ _ _ (by simpa using hi)]
    simp [List.getD_eq_getElem?_getD, hi]
  have h2 : (List.range quad.length ++ [quad.length]).getD (i + 1) 0 = i + 1 := by
    rw [← List.range_succ, List.getD_eq_getElem?_getD, List.getElem?_range (by omega)]
    rfl
  unfold Csc.tmulVec Csc.col distQuadratic
  simp only [h1, h2, Nat.add_sub_cancel_left]
  have h3 : ((List.range quad.length).zip quad).drop i = (i, quad[i]) ::
      ((List.range quad.length).zip quad).drop (i + 1) := by
    rw [List.drop_eq_getElem_cons (by simp; exact hi)]
    simp
  rw [h3]
  simp [List.getD_eq_getElem?_getD, hi]

variable {H X : Type*} [Classifier H X ℝ]

/-- `p` is the program over the distributions for the sample `S` and the hypotheses `hs`, with capping rows
`cc * d_i ≤ ci`, edges at most `g`, and objective `Σ_i (b_i d_i + a_i d_i²/2)`. -/
structure IsDist (p : Program ℝ) (S : Examples X ℝ) (hs : List H) (cc ci g : ℝ) (b a : Nat → ℝ) : Prop where
  A : p.A = distConstraintMatrix S.length hs.length (rowsOf S hs) cc
  rhs : p.b = rhsOf S.length hs.length ci g
  cones : p.cones = senseOf S.length hs.length
  qlen : p.q.length = S.length
  q1 : ∀ i, i < S.length → p.q.getD i 0 = b i
  pcols : p.P.nCols = S.length
  p1 : ∀ (x : List ℝ) i, i < S.length → p.P.tmulVec x i = a i * x.getD i 0

theorem dist_tmulVec (S : Examples X ℝ) (hs : List H) (cc : ℝ) (z : List ℝ) (i : Nat) (hi : i < S.length) :
    (distConstraintMatrix S.length hs.length (rowsOf S hs) cc).tmulVec z i =
      z.getD 0 0 - z.getD (1 + i) 0 + cc * z.getD (1 + S.length + i) 0 +
      ∑ k ∈ Finset.range hs.length, ((hs.map (margins S)).getD k []).getD i 0 * z.getD (1 + 2 * S.length + k) 0 := by
  obtain ⟨c, hc, hA⟩ := dist_rep S.length hs.length (rowsOf S hs) cc
  have hr : (rowsOf S hs)[i]? = some (hs.map fun h => S[i].2 * conf h S[i].1) := by
    simp [rowsOf, hi]
  have hcol : (((rowsOf S hs).zipIdx 1).map (exCol S.length cc))[i]? =
      some (exCol S.length cc (hs.map fun h => S[i].2 * conf h S[i].1, 1 + i)) := by
    rw [List.getElem?_map, List.getElem?_zipIdx, hr]
    simp
  have hnil : tc ([] : List (Nat × ℝ)) z = 0 := rfl
  have : (distConstraintMatrix S.length hs.length (rowsOf S hs) cc).tmulVec z i =
      tc (exCol S.length cc (hs.map fun h => S[i].2 * conf h S[i].1, 1 + i)) z := by
    unfold Csc.tmulVec tc
    rw [hA, hc.col_eq _ _ i _ hcol]
  rw [this]
  simp only [exCol, tc_append, tc_cons, hnil, tc_seg, List.length_map]
  have : ∀ k, (hs.map fun h => S[i].2 * conf h S[i].1).getD k 0 = ((hs.map (margins S)).getD k []).getD i 0 := by
    intro k
    rw [← rowsOf_getD, List.getD_eq_getElem?_getD (l := rowsOf S hs), hr]; rfl
  simp only [this]
  rw [show S.length + (1 + i) = 1 + S.length + i by omega]
  ring

theorem dist_wellFormed (S : Examples X ℝ) (hs : List H) (cc : ℝ) :
    (distConstraintMatrix S.length hs.length (rowsOf S hs) cc).WellFormed := by
  obtain ⟨c, hc, hA⟩ := dist_rep S.length hs.length (rowsOf S hs) cc
  have hg := (gamma_wellFormed S hs cc)
  obtain ⟨c', hc', hA'⟩ := gamma_rep S.length hs.length (rowsOf S hs) cc
  rw [hA, show c.toCsc (1 + 2 * S.length + hs.length) S.length =
    c.toCsc (1 + 2 * S.length + hs.length) (((rowsOf S hs).zipIdx 1).map (exCol S.length cc)).length by
    simp [rowsOf]]
  apply hc.wellFormed
  intro l hl
  obtain ⟨j, hj, rfl⟩ := List.getElem_of_mem hl
  have hj' : j < S.length := by simpa [rowsOf] using hj
  have := hg.rows (1 + j) (by show 1 + j < 1 + S.length; omega)
  have hcol : (gammaConstraintMatrix S.length hs.length (rowsOf S hs) cc).col (1 + j) =
      (((rowsOf S hs).zipIdx 1).map (exCol S.length cc))[j] := by
    rw [hA']
    apply hc'.col_eq
    unfold gammaCols
    rw [Nat.add_comm 1 j, List.getElem?_cons_succ, List.getElem?_eq_getElem hj]
  rw [hcol] at this
  exact this

namespace IsDist

variable {p : Program ℝ} {S : Examples X ℝ} {hs : List H} {cc ci g : ℝ} {b a : Nat → ℝ}

theorem isEq (hp : IsDist p S hs cc ci g b a) (i : Nat) :
    (Program.isEq p.cones)[i]? = if i = 0 then some true else if i < 1 + 2 * S.length + hs.length then some false
      else none := by
  rw [hp.cones]
  simp only [senseOf, Program.isEq, List.flatMap_cons, List.flatMap_nil, List.append_nil]
  rcases i with _ | i
  · simp
  · rw [if_neg (by omega), show List.replicate 1 true = [true] from rfl, List.singleton_append, List.getElem?_cons_succ,
      List.getElem?_replicate]
    by_cases h : i < 2 * S.length + hs.length
    · rw [if_pos h, if_pos (by omega)]
    · rw [if_neg h, if_neg (by omega)]

theorem isEq_length (hp : IsDist p S hs cc ci g b a) : (Program.isEq p.cones).length = p.A.nRows := by
  rw [hp.cones, hp.A]; simp [senseOf, Program.isEq, distConstraintMatrix, CscBuf.toCsc]; omega

theorem b_getD (hp : IsDist p S hs cc ci g b a) :
    p.b.getD 0 0 = 1 ∧ (∀ i, i < S.length → p.b.getD (1 + i) 0 = 0) ∧
    (∀ i, i < S.length → p.b.getD (1 + S.length + i) 0 = ci) ∧
    (∀ k, k < hs.length → p.b.getD (1 + 2 * S.length + k) 0 = g) := by
  rw [hp.rhs]
  unfold rhsOf
  refine ⟨by simp, ?_, ?_, ?_⟩
  · intro i hi
    rw [List.getD_append _ _ _ _ (by simp; omega), List.getD_append _ _ _ _ (by simp; omega), Nat.add_comm]
    simp [List.getD_eq_getElem?_getD, hi]
  · intro i hi
    rw [List.getD_append _ _ _ _ (by simp; omega), List.getD_append_right _ _ _ _ (by simp; omega)]
    simp only [List.length_append, List.length_replicate, List.length_singleton, Nat.add_sub_cancel_left]
    simp [List.getD_eq_getElem?_getD, hi]
  · intro k hk
    rw [List.getD_append_right _ _ _ _ (by simp; omega)]
    simp only [List.length_append, List.length_replicate, List.length_singleton]
    rw [show 1 + 2 * S.length + k - (1 + S.length + S.length) = k by omega]
    simp [List.getD_eq_getElem?_getD, hk]

theorem nRows (hp : IsDist p S hs cc ci g b a) : p.A.nRows = 1 + 2 * S.length + hs.length := by
  rw [hp.A]; rfl

theorem nCols (hp : IsDist p S hs cc ci g b a) : p.A.nCols = S.length := by
  rw [hp.A]; rfl

theorem slack (hp : IsDist p S hs cc ci g b a) (d : List ℝ) (hd : d.length = S.length) :
    p.slack d 0 = 1 - d.sum ∧ (∀ i, i < S.length → p.slack d (1 + i) = d.getD i 0) ∧
    (∀ i, i < S.length → p.slack d (1 + S.length + i) = ci - cc * d.getD i 0) ∧
    (∀ k h, hs[k]? = some h → p.slack d (1 + 2 * S.length + k) = g - Spec.edge S d (conf h)) := by
  obtain ⟨b0, b1, b2, b3⟩ := hp.b_getD
  obtain ⟨m0, m1, m2, m3⟩ := dist_mulVec S.length hs.length (rowsOf S hs) cc (by simp [rowsOf]) d hd
  unfold Program.slack
  rw [hp.A]
  refine ⟨by rw [b0, m0], ?_, ?_, ?_⟩
  · intro i hi; rw [b1 i hi, m1 i hi]; ring
  · intro i hi; rw [b2 i hi, m2 i hi]
  · intro k h hk
    rw [b3 k (List.getElem?_eq_some_iff.1 hk).1, m3 k, rowsOf_edge S hs d k h hk]

/-- The feasible points. -/
theorem feasible_iff (hp : IsDist p S hs cc ci g b a) (d : List ℝ) :
    p.Feasible d ↔ d.length = S.length ∧ Spec.IsProb d ∧ (∀ q ∈ d, cc * q ≤ ci) ∧
      ∀ h ∈ hs, Spec.edge S d (conf h) ≤ g := by
  unfold Program.Feasible
  simp only [hp.isEq, hp.nCols]
  constructor
  · rintro ⟨hd, h⟩
    obtain ⟨s0, s1, s2, s3⟩ := hp.slack d hd
    refine ⟨hd, ⟨?_, ?_⟩, ?_, ?_⟩
    · intro q hq
      obtain ⟨i, hi, rfl⟩ := mem_getD _ _ hq
      have := (h (1 + i) false (by rw [if_neg (by omega), if_pos (by omega)])).2 rfl
      rwa [s1 i (by omega)] at this
    · have := (h 0 true (by simp)).1 rfl
      rw [s0] at this; linarith
    · intro q hq
      obtain ⟨i, hi, rfl⟩ := mem_getD _ _ hq
      have := (h (1 + S.length + i) false (by rw [if_neg (by omega), if_pos (by omega)])).2 rfl
      rw [s2 i (by omega)] at this; linarith
    · intro f hf
      obtain ⟨k, hk, rfl⟩ := List.getElem_of_mem hf
      have := (h (1 + 2 * S.length + k) false (by rw [if_neg (by omega), if_pos (by omega)])).2 rfl
      rw [s3 k hs[k] (by simp [hk])] at this; linarith
  · rintro ⟨hd, ⟨h1, h2⟩, h3, h4⟩
    obtain ⟨s0, s1, s2, s3⟩ := hp.slack d hd
    refine ⟨hd, fun i e hie => ?_⟩
    by_cases c0 : i = 0
    · subst c0
      rw [if_pos rfl] at hie; cases hie
      exact ⟨fun _ => by rw [s0, h2]; ring, by simp⟩
    · rw [if_neg c0] at hie
      by_cases c1 : i < 1 + 2 * S.length + hs.length
      · rw [if_pos c1] at hie; cases hie
        refine ⟨by simp, fun _ => ?_⟩
        by_cases c2 : i < 1 + S.length
        · obtain ⟨r, rfl⟩ : ∃ r, i = 1 + r := ⟨i - 1, by omega⟩
          rw [s1 r (by omega)]
          exact h1 _ (getD_mem d r (by omega))
        · by_cases c3 : i < 1 + 2 * S.length
          · obtain ⟨r, rfl⟩ : ∃ r, i = 1 + S.length + r := ⟨i - (1 + S.length), by omega⟩
            rw [s2 r (by omega)]
            have := h3 _ (getD_mem d r (by omega)); linarith
          · obtain ⟨k, rfl⟩ : ∃ k, i = 1 + 2 * S.length + k := ⟨i - (1 + 2 * S.length), by omega⟩
            have hk : k < hs.length := by omega
            rw [s3 k hs[k] (by simp [hk])]
            have := h4 hs[k] (List.getElem_mem hk); linarith
      · rw [if_neg c1] at hie; cases hie

theorem objective_eq (hp : IsDist p S hs cc ci g b a) (d : List ℝ) (hd : d.length = S.length) :
    p.objective d = quadPen S.length b a d := by
  unfold Program.objective quadPen
  rw [zipWith_mul_sum, sum_range_list, hp.pcols, hd]
  have h1 : ∀ i ∈ Finset.range S.length, p.q.getD i 0 * d.getD i 0 = b i * d.getD i 0 := by
    intro i hi
    rw [hp.q1 i (Finset.mem_range.1 hi)]
  have h2 : ∀ i ∈ Finset.range S.length, d.getD i 0 * p.P.tmulVec d i = a i * d.getD i 0 ^ 2 := by
    intro i hi
    rw [hp.p1 _ i (Finset.mem_range.1 hi)]; ring
  rw [Finset.sum_congr rfl h1, Finset.sum_congr rfl h2, Finset.sum_add_distrib, ← Finset.sum_div]

/-- Optimal pairs of strictly convex programs agree. -/
theorem unique (hp : IsDist p S hs cc ci g b a) (ha : ∀ i, i < S.length → 0 < a i) {s t : Solution ℝ} (h1 : p.Optimal s)
    (h2 : p.Optimal t) : s.x = t.x ∧ s.objVal = t.objVal :=
  h1.unique h2 a (by rw [hp.nCols]; exact ha) (by rw [hp.nCols]; exact hp.p1) (by rw [hp.pcols, hp.nCols])
    (by rw [hp.A]; exact dist_wellFormed S hs cc) hp.isEq_length

end IsDist

end Miniboosts
