import Verif.Lemmas.LPBoostExists
import Verif.Model.SoftBoost
import Mathlib.Algebra.Order.BigOperators.Ring.Finset

/-! # The programs with a `γ` column: feasible points, optimal pairs, existence

`γ` bounds the edges of the hypotheses under the distribution `d`; the objective is
`γ + Σ_i (b_i d_i + a_i d_i²/2)`. -/

namespace Miniboosts

open LP

variable {H X : Type*} [Classifier H X ℝ]

/-- The margins of the hypotheses, example by example. -/
noncomputable def rowsOf (S : Examples X ℝ) (hs : List H) : List (List ℝ) :=
  S.map fun e => hs.map fun h => e.2 * conf h e.1

theorem rowsOf_nil (S : Examples X ℝ) : rowsOf S ([] : List H) = List.replicate S.length [] := by
  simp only [rowsOf, List.map_nil]
  exact List.map_const' ..

theorem updateZip_map {α β γ : Type*} (f : α → β → α) (l : List γ) (g : γ → α) (k : γ → β) :
    updateZip f (l.map g) (l.map k) = l.map fun x => f (g x) (k x) := by
  induction l with
  | nil => rfl
  | cons a l ih => simp [updateZip, ih]

theorem pushMargins_rowsOf (S : Examples X ℝ) (hs : List H) (h : H) :
    pushMargins (rowsOf S hs) (margins S h) = rowsOf S (hs ++ [h]) := by
  simp only [pushMargins, rowsOf, margins, updateZip_map, List.map_append, List.map_cons, List.map_nil]

theorem rowsOf_getD (S : Examples X ℝ) (hs : List H) (i k : Nat) :
    ((rowsOf S hs).getD i []).getD k 0 = ((hs.map (margins S)).getD k []).getD i 0 := by
  simp only [rowsOf, List.getD_eq_getElem?_getD, List.getElem?_map]
  cases hi : S[i]? <;> cases hk : hs[k]? <;> simp [hi, hk, margins]

theorem rowsOf_edge (S : Examples X ℝ) (hs : List H) (d : List ℝ) (k : Nat) (h : H) (hk : hs[k]? = some h)  :
    (List.zipWith (fun m x => m.getD k 0 * x) (rowsOf S hs) d).sum = Spec.edge S d (conf h) := by
  unfold rowsOf Spec.edge
  have hz : ∀ (f : X × ℝ → ℝ → ℝ), List.zipWith f S d = (List.zip S d).map fun p => f p.1 p.2 :=
    fun f => (List.map_zip_eq_zipWith (f := fun p => f p.1 p.2)).symm
  rw [List.zipWith_map_left, hz]
  congr 1
  apply List.map_congr_left
  intro p _
  simp only [List.getD_eq_getElem?_getD, List.getElem?_map, hk, Option.map_some, Option.getD_some]
  ring

/-- `p` is the program for the sample `S` and the hypotheses `hs` with capping rows `cc * d_i ≤ ci` and objective
`γ + Σ_i (b_i d_i + a_i d_i²/2)`. -/
structure IsGamma (p : Program ℝ) (S : Examples X ℝ) (hs : List H) (cc ci : ℝ) (b a : Nat → ℝ) : Prop where
  A : p.A = gammaConstraintMatrix S.length hs.length (rowsOf S hs) cc
  rhs : p.b = rhsOf S.length hs.length ci 0
  cones : p.cones = senseOf S.length hs.length
  qlen : p.q.length = 1 + S.length
  q0 : p.q.getD 0 0 = 1
  q1 : ∀ i, i < S.length → p.q.getD (1 + i) 0 = b i
  pcols : p.P.nCols = 1 + S.length
  p0 : ∀ x : List ℝ, p.P.tmulVec x 0 = 0
  p1 : ∀ (x : List ℝ) i, i < S.length → p.P.tmulVec x (1 + i) = a i * x.getD (1 + i) 0

/-- The penalty `Σ_i (b_i d_i + a_i d_i²/2)`. -/
noncomputable def quadPen (n : Nat) (b a : Nat → ℝ) (d : List ℝ) : ℝ :=
  ∑ i ∈ Finset.range n, (b i * d.getD i 0 + a i * d.getD i 0 ^ 2 / 2)

theorem gamma_cols_get (n nH : Nat) (marg : List (List ℝ)) (cap : ℝ) (i : Nat) (m : List ℝ) (hm : marg[i]? = some m) :
    (gammaCols n nH marg cap)[1 + i]? = some (exCol n cap (m, 1 + i)) := by
  unfold gammaCols
  rw [Nat.add_comm 1 i, List.getElem?_cons_succ, List.getElem?_map, List.getElem?_zipIdx, hm]
  simp [Nat.add_comm]

theorem gamma_tmulVec (S : Examples X ℝ) (hs : List H) (cc : ℝ) (z : List ℝ) :
    let A := gammaConstraintMatrix S.length hs.length (rowsOf S hs) cc
    A.tmulVec z 0 = -∑ k ∈ Finset.range hs.length, z.getD (1 + 2 * S.length + k) 0 ∧
    ∀ i, i < S.length → A.tmulVec z (1 + i) = z.getD 0 0 - z.getD (1 + i) 0 + cc * z.getD (1 + S.length + i) 0 +
      ∑ k ∈ Finset.range hs.length, ((hs.map (margins S)).getD k []).getD i 0 * z.getD (1 + 2 * S.length + k) 0 := by
  intro A
  obtain ⟨c, hc, hA⟩ := gamma_rep S.length hs.length (rowsOf S hs) cc
  have hcol : ∀ j l, (gammaCols S.length hs.length (rowsOf S hs) cc)[j]? = some l → A.tmulVec z j = tc l z := by
    intro j l hj
    show (gammaConstraintMatrix S.length hs.length (rowsOf S hs) cc).tmulVec z j = _
    unfold Csc.tmulVec tc
    rw [hA, hc.col_eq _ _ j l hj]
  have hnil : tc ([] : List (Nat × ℝ)) z = 0 := rfl
  constructor
  · rw [hcol 0 _ rfl, tc_seg, List.length_replicate, ← Finset.sum_neg_distrib]
    apply Finset.sum_congr rfl
    intro k hk
    have hk' := Finset.mem_range.1 hk
    simp [List.getD_eq_getElem?_getD, hk']
  · intro i hi
    have hr : (rowsOf S hs)[i]? = some (hs.map fun h => S[i].2 * conf h S[i].1) := by
      simp [rowsOf, hi]
    rw [hcol (1 + i) _ (gamma_cols_get _ _ _ _ i _ hr)]
    simp only [exCol, tc_append, tc_cons, hnil, tc_seg, List.length_map]
    have : ∀ k, (hs.map fun h => S[i].2 * conf h S[i].1).getD k 0 = ((hs.map (margins S)).getD k []).getD i 0 := by
      intro k
      rw [← rowsOf_getD, List.getD_eq_getElem?_getD (l := rowsOf S hs), hr]; rfl
    simp only [this]
    rw [show S.length + (1 + i) = 1 + S.length + i by omega]
    ring

theorem gamma_wellFormed (S : Examples X ℝ) (hs : List H) (cc : ℝ) :
    (gammaConstraintMatrix S.length hs.length (rowsOf S hs) cc).WellFormed := by
  obtain ⟨c, hc, hA⟩ := gamma_rep S.length hs.length (rowsOf S hs) cc
  rw [hA, show 1 + S.length = (gammaCols S.length hs.length (rowsOf S hs) cc).length by
    simp [gammaCols, rowsOf]; omega]
  apply hc.wellFormed
  intro l hl
  have hseg : ∀ (vs : List ℝ), vs.length = hs.length →
      ((BufRep.seg (1 + 2 * S.length) vs).map Prod.fst).Pairwise (· < ·) ∧
        ∀ e ∈ BufRep.seg (1 + 2 * S.length) vs, 1 + 2 * S.length ≤ e.1 ∧ e.1 < 1 + 2 * S.length + hs.length := by
    intro vs hv
    rw [← hv]
    exact seg_rows_sorted _ _
  simp only [gammaCols, List.mem_cons, List.mem_map] at hl
  rcases hl with rfl | ⟨p, hp, rfl⟩
  · obtain ⟨h1, h2⟩ := hseg (List.replicate hs.length (-1)) (by simp)
    exact ⟨h1, fun e he => (h2 e he).2⟩
  · have hpm := List.mem_zipIdx hp
    have hlen : p.1.length = hs.length := by
      have : p.1 ∈ rowsOf S hs := by rw [hpm.2.2]; exact List.getElem_mem _
      simp only [rowsOf, List.mem_map] at this
      obtain ⟨e, _, he⟩ := this
      rw [← he]; simp
    have hb : 1 ≤ p.2 ∧ p.2 ≤ S.length := by
      have := hpm.1; have := hpm.2.1
      simp [rowsOf] at this; omega
    obtain ⟨h1, h2⟩ := hseg p.1 hlen
    constructor
    · unfold exCol
      rw [List.map_append, List.pairwise_append]
      refine ⟨?_, h1, ?_⟩
      · simp; omega
      · intro a ha b hbm
        obtain ⟨e, he, rfl⟩ := List.mem_map.1 hbm
        have := h2 e he
        simp at ha
        omega
    · intro e he
      unfold exCol at he
      rw [List.mem_append] at he
      rcases he with he | he
      · simp at he
        rcases he with rfl | rfl | rfl <;> simp <;> omega
      · exact (h2 e he).2

namespace IsGamma

variable {p : Program ℝ} {S : Examples X ℝ} {hs : List H} {cc ci : ℝ} {b a : Nat → ℝ}

theorem isEq (hp : IsGamma p S hs cc ci b a) (i : Nat) :
    (Program.isEq p.cones)[i]? = if i = 0 then some true else if i < 1 + 2 * S.length + hs.length then some false
      else none := by
  rw [hp.cones]
  simp only [senseOf, Program.isEq, List.flatMap_cons, List.flatMap_nil, List.append_nil]
  rcases i with _ | i
  · simp
  · rw [if_neg (by omega), show List.replicate 1 true = [true] from rfl, List.singleton_append, List.getElem?_cons_succ,
      List.getElem?_replicate]
    by_cases h : i < 2 * S.length + hs.length
    · rw [if_pos h, if_pos (by omega)]
    · rw [if_neg h, if_neg (by omega)]

theorem b_getD (hp : IsGamma p S hs cc ci b a) :
    p.b.getD 0 0 = 1 ∧ (∀ i, i < S.length → p.b.getD (1 + i) 0 = 0) ∧
    (∀ i, i < S.length → p.b.getD (1 + S.length + i) 0 = ci) ∧
    (∀ k, p.b.getD (1 + 2 * S.length + k) 0 = 0) := by
  rw [hp.rhs]
  unfold rhsOf
  refine ⟨by simp, ?_, ?_, ?_⟩
  · intro i hi
    rw [List.getD_append _ _ _ _ (by simp; omega), List.getD_append _ _ _ _ (by simp; omega), Nat.add_comm]
    simp [List.getD_eq_getElem?_getD, hi]
  · intro i hi
    rw [List.getD_append _ _ _ _ (by simp; omega), List.getD_append_right _ _ _ _ (by simp; omega)]
    simp only [List.length_append, List.length_replicate, List.length_singleton, Nat.add_sub_cancel_left]
    simp [List.getD_eq_getElem?_getD, hi]
  · intro k
    rw [List.getD_append_right _ _ _ _ (by simp; omega)]
    simp only [List.getD_eq_getElem?_getD, List.getElem?_replicate]
    split <;> simp

theorem nRows (hp : IsGamma p S hs cc ci b a) : p.A.nRows = 1 + 2 * S.length + hs.length := by
  rw [hp.A]; rfl

theorem nCols (hp : IsGamma p S hs cc ci b a) : p.A.nCols = 1 + S.length := by
  rw [hp.A]; rfl

theorem slack (hp : IsGamma p S hs cc ci b a) (γ : ℝ) (d : List ℝ) (hd : d.length = S.length) :
    p.slack (γ :: d) 0 = 1 - d.sum ∧ (∀ i, i < S.length → p.slack (γ :: d) (1 + i) = d.getD i 0) ∧
    (∀ i, i < S.length → p.slack (γ :: d) (1 + S.length + i) = ci - cc * d.getD i 0) ∧
    (∀ k h, hs[k]? = some h → p.slack (γ :: d) (1 + 2 * S.length + k) = γ - Spec.edge S d (conf h)) := by
  obtain ⟨b0, b1, b2, b3⟩ := hp.b_getD
  obtain ⟨m0, m1, m2, m3⟩ := gamma_mulVec S.length hs.length (rowsOf S hs) cc (by simp [rowsOf]) γ d hd
  unfold Program.slack
  rw [hp.A]
  refine ⟨by rw [b0, m0], ?_, ?_, ?_⟩
  · intro i hi; rw [b1 i hi, m1 i hi]; ring
  · intro i hi; rw [b2 i hi, m2 i hi]
  · intro k h hk
    rw [b3 k, m3 k (List.getElem?_eq_some_iff.1 hk).1, rowsOf_edge S hs d k h hk]; ring

/-- The feasible points: capped distributions together with a bound on the edges. -/
theorem feasible_iff (hp : IsGamma p S hs cc ci b a) (γ : ℝ) (d : List ℝ) :
    p.Feasible (γ :: d) ↔ d.length = S.length ∧ Spec.IsProb d ∧ (∀ q ∈ d, cc * q ≤ ci) ∧
      ∀ h ∈ hs, Spec.edge S d (conf h) ≤ γ := by
  unfold Program.Feasible
  simp only [hp.isEq, hp.nCols, List.length_cons]
  constructor
  · rintro ⟨hl, h⟩
    have hd : d.length = S.length := by omega
    obtain ⟨s0, s1, s2, s3⟩ := hp.slack γ d hd
    refine ⟨hd, ⟨?_, ?_⟩, ?_, ?_⟩
    · intro q hq
      obtain ⟨i, hi, rfl⟩ := mem_getD _ _ hq
      have := (h (1 + i) false (by rw [if_neg (by omega), if_pos (by omega)])).2 rfl
      rwa [s1 i (by omega)] at this
    · have := (h 0 true (by simp)).1 rfl
      rw [s0] at this; linarith
    · intro q hq
      obtain ⟨i, hi, rfl⟩ := mem_getD _ _ hq
      have := (h (1 + S.length + i) false (by rw [if_neg (by omega), if_pos (by omega)])).2 rfl
      rw [s2 i (by omega)] at this; linarith
    · intro f hf
      obtain ⟨k, hk, rfl⟩ := List.getElem_of_mem hf
      have := (h (1 + 2 * S.length + k) false (by rw [if_neg (by omega), if_pos (by omega)])).2 rfl
      rw [s3 k hs[k] (by simp [hk])] at this; linarith
  · rintro ⟨hd, ⟨h1, h2⟩, h3, h4⟩
    obtain ⟨s0, s1, s2, s3⟩ := hp.slack γ d hd
    refine ⟨by omega, fun i e hie => ?_⟩
    by_cases c0 : i = 0
    · subst c0
      rw [if_pos rfl] at hie; cases hie
      exact ⟨fun _ => by rw [s0, h2]; ring, by simp⟩
    · rw [if_neg c0] at hie
      by_cases c1 : i < 1 + 2 * S.length + hs.length
      · rw [if_pos c1] at hie; cases hie
        refine ⟨by simp, fun _ => ?_⟩
        by_cases c2 : i < 1 + S.length
        · obtain ⟨r, rfl⟩ : ∃ r, i = 1 + r := ⟨i - 1, by omega⟩
          rw [s1 r (by omega)]
          exact h1 _ (getD_mem d r (by omega))
        · by_cases c3 : i < 1 + 2 * S.length
          · obtain ⟨r, rfl⟩ : ∃ r, i = 1 + S.length + r := ⟨i - (1 + S.length), by omega⟩
            rw [s2 r (by omega)]
            have := h3 _ (getD_mem d r (by omega)); linarith
          · obtain ⟨k, rfl⟩ : ∃ k, i = 1 + 2 * S.length + k := ⟨i - (1 + 2 * S.length), by omega⟩
            have hk : k < hs.length := by omega
            rw [s3 k hs[k] (by simp [hk])]
            have := h4 hs[k] (List.getElem_mem hk); linarith
      · rw [if_neg c1] at hie; cases hie

theorem objective_eq (hp : IsGamma p S hs cc ci b a) (γ : ℝ) (d : List ℝ) (hd : d.length = S.length) :
    p.objective (γ :: d) = γ + quadPen S.length b a d := by
  unfold Program.objective quadPen
  rw [zipWith_mul_sum, sum_range_list, hp.pcols, List.length_cons, hd, Nat.add_comm 1, Finset.sum_range_succ',
    Finset.sum_range_succ', hp.p0, hp.q0]
  have h1 : ∀ i ∈ Finset.range S.length, p.q.getD (i + 1) 0 * (γ :: d).getD (i + 1) 0 = b i * d.getD i 0 := by
    intro i hi
    rw [Nat.add_comm i 1, hp.q1 i (Finset.mem_range.1 hi), Nat.add_comm 1 i, List.getD_cons_succ]
  have h2 : ∀ i ∈ Finset.range S.length, (γ :: d).getD (i + 1) 0 * p.P.tmulVec (γ :: d) (i + 1) =
      a i * d.getD i 0 ^ 2 := by
    intro i hi
    rw [Nat.add_comm i 1, hp.p1 _ i (Finset.mem_range.1 hi), Nat.add_comm 1 i, List.getD_cons_succ]; ring
  rw [Finset.sum_congr rfl h1, Finset.sum_congr rfl h2, Finset.sum_add_distrib, ← Finset.sum_div]
  simp only [List.getD_cons_zero]
  ring

/-- The objective lies above its linearisation. -/
theorem objective_ge (hp : IsGamma p S hs cc ci b a) (ha : ∀ i, i < S.length → 0 ≤ a i) (γ γ' : ℝ) (d d' : List ℝ)
    (hd : d.length = S.length) (hd' : d'.length = S.length) :
    ∑ j ∈ Finset.range (1 + S.length), (p.P.tmulVec (γ :: d) j + p.q.getD j 0) * ((γ' :: d').getD j 0 - (γ :: d).getD j 0)
      ≤ p.objective (γ' :: d') - p.objective (γ :: d) := by
  rw [hp.objective_eq γ' d' hd', hp.objective_eq γ d hd, Nat.add_comm 1, Finset.sum_range_succ', hp.p0, hp.q0]
  unfold quadPen
  simp only [List.getD_cons_zero]
  have : ∑ i ∈ Finset.range S.length, (p.P.tmulVec (γ :: d) (i + 1) + p.q.getD (i + 1) 0) *
      ((γ' :: d').getD (i + 1) 0 - (γ :: d).getD (i + 1) 0) ≤
      ∑ i ∈ Finset.range S.length, ((b i * d'.getD i 0 + a i * d'.getD i 0 ^ 2 / 2) -
        (b i * d.getD i 0 + a i * d.getD i 0 ^ 2 / 2)) := by
    apply Finset.sum_le_sum
    intro i hi
    have hi' := Finset.mem_range.1 hi
    rw [Nat.add_comm i 1, hp.p1 _ i hi', hp.q1 i hi', Nat.add_comm 1 i, List.getD_cons_succ, List.getD_cons_succ]
    nlinarith [mul_nonneg (ha i hi') (sq_nonneg (d'.getD i 0 - d.getD i 0))]
  rw [Finset.sum_sub_distrib] at this
  linarith

/-- `zᵀ(slack at x)` by groups of rows. -/
theorem slack_sum (hp : IsGamma p S hs cc ci b a) (z : List ℝ) (γ : ℝ) (d : List ℝ) (hd : d.length = S.length)
    (w : List ℝ) (hw : w = z.drop (1 + 2 * S.length)) (hwl : w.length = hs.length) (hws : w.sum = 1) :
    ∑ i ∈ Finset.range p.A.nRows, z.getD i 0 * p.slack (γ :: d) i =
      z.getD 0 0 * (1 - d.sum) + ∑ i ∈ Finset.range S.length, z.getD (1 + i) 0 * d.getD i 0 +
        ∑ i ∈ Finset.range S.length, z.getD (1 + S.length + i) 0 * (ci - cc * d.getD i 0) +
        (γ - Spec.edge S d (fun x => Spec.vote conf (List.zip w hs) x)) := by
  obtain ⟨s0, s1, s2, s3⟩ := hp.slack γ d hd
  rw [hp.nRows, show 1 + 2 * S.length + hs.length = 1 + S.length + S.length + hs.length by omega, Finset.sum_range_add,
    Finset.sum_range_add, Finset.sum_range_add, Finset.sum_range_one, s0]
  congr 1
  · congr 1
    · congr 1
      exact Finset.sum_congr rfl fun i hi => by rw [s1 i (Finset.mem_range.1 hi)]
    · exact Finset.sum_congr rfl fun i hi => by rw [s2 i (Finset.mem_range.1 hi)]
  · rw [pair_edge S hs d w hwl]
    have h1 : ∀ k ∈ Finset.range hs.length, z.getD (1 + S.length + S.length + k) 0 *
        p.slack (γ :: d) (1 + S.length + S.length + k) =
        w.getD k 0 * γ - w.getD k 0 * ((hs.map fun h => Spec.edge S d (conf h)).getD k 0) := by
      intro k hk
      have hk' := Finset.mem_range.1 hk
      rw [show 1 + S.length + S.length + k = 1 + 2 * S.length + k by omega, s3 k hs[k] (by simp [hk']), hw, getD_drop]
      simp [List.getD_eq_getElem?_getD, hk']
      ring
    rw [Finset.sum_congr rfl h1, Finset.sum_sub_distrib, ← Finset.sum_mul]
    have h2 : ∑ k ∈ Finset.range hs.length, w.getD k 0 = 1 := by rw [← hws, sum_getD w, hwl]
    rw [h2, one_mul]
    congr 1
    have h3 := zipWith_mul_sum (hs.map fun h => Spec.edge S d (conf h)) w
    rw [List.zipWith_map_left, hwl] at h3
    rw [show List.zipWith (fun a b => Spec.edge S d (conf a) * b) hs w =
      (List.zip hs w).map (fun p => Spec.edge S d (conf p.1) * p.2) from
        (List.map_zip_eq_zipWith (f := fun p : H × ℝ => Spec.edge S d (conf p.1) * p.2)).symm] at h3
    rw [show (List.zip w hs).map (fun p => p.1 * Spec.edge S d (conf p.2)) =
      (List.zip hs w).map (fun p => Spec.edge S d (conf p.1) * p.2) from ?_, h3]
    · exact Finset.sum_congr rfl fun k _ => mul_comm _ _
    · rw [← List.zip_swap, List.map_map]
      apply List.map_congr_left
      intro p _
      simp [mul_comm]

/-- What an optimal pair says: `d` is a capped distribution, `w` a convex combination, and they are a saddle
point of `edge of the w-vote under d + penalty`. -/
theorem optimal (hp : IsGamma p S hs cc ci b a) (ha : ∀ i, i < S.length → 0 ≤ a i) (s : Solution ℝ)
    (ho : p.Optimal s) :
    ∃ γ d, s.x = γ :: d ∧ 1 + 2 * S.length ≤ s.z.length ∧ d.length = S.length ∧ Spec.IsProb d ∧ (∀ q ∈ d, cc * q ≤ ci) ∧
      (∀ h ∈ hs, Spec.edge S d (conf h) ≤ γ) ∧
      (s.z.drop (1 + 2 * S.length)).length = hs.length ∧ Spec.IsProb (s.z.drop (1 + 2 * S.length)) ∧
      s.objVal = γ + quadPen S.length b a d ∧
      ∀ d' : List ℝ, d'.length = S.length → Spec.IsProb d' → (∀ q ∈ d', cc * q ≤ ci) →
        γ + quadPen S.length b a d ≤
          Spec.edge S d' (fun x => Spec.vote conf (List.zip (s.z.drop (1 + 2 * S.length)) hs) x) +
            quadPen S.length b a d' := by
  have hxl := ho.feasible.1
  rw [hp.nCols] at hxl
  have hzl := ho.zlen
  rw [hp.nRows] at hzl
  obtain ⟨γ, d, hx⟩ : ∃ γ d, s.x = γ :: d := by
    match hxx : s.x with
    | [] => rw [hxx] at hxl; simp at hxl; omega
    | γ :: d => exact ⟨γ, d, rfl⟩
  obtain ⟨hd, hprob, hcap, hedge⟩ := (hp.feasible_iff γ d).1 (hx ▸ ho.feasible)
  set w := s.z.drop (1 + 2 * S.length) with hw
  have hwl : w.length = hs.length := by simp [hw]; omega
  obtain ⟨t0, t1⟩ := gamma_tmulVec S hs cc s.z
  have hws : w.sum = 1 := by
    have := ho.stationary 0 (by rw [hp.nCols]; omega)
    rw [hp.p0, hp.q0, hp.A, t0] at this
    rw [sum_getD, hwl, Finset.sum_congr rfl fun k _ => by rw [hw, getD_drop]]
    linarith
  have hdual : ∀ i, i ≠ 0 → i < 1 + 2 * S.length + hs.length → 0 ≤ s.z.getD i 0 := by
    intro i h0 h1
    exact ho.dual i (by rw [hp.isEq, if_neg h0, if_pos h1])
  have hwn : ∀ q ∈ w, 0 ≤ q := by
    intro q hq
    obtain ⟨k, hk, rfl⟩ := mem_getD _ _ hq
    rw [hw, getD_drop]
    exact hdual _ (by omega) (by omega)
  refine ⟨γ, d, hx, by omega, hd, hprob, hcap, hedge, hwl, ⟨hwn, hws⟩, ?_, ?_⟩
  · rw [ho.value, hx, hp.objective_eq γ d hd]
  · intro d' hd' hprob' hcap'
    set γ' := Spec.edge S d' (fun x => Spec.vote conf (List.zip w hs) x) with hγ'
    rw [← hp.objective_eq γ d hd, ← hp.objective_eq γ' d' hd']
    have hge := hp.objective_ge ha γ γ' d d' hd hd'
    have hst : ∀ j ∈ Finset.range (1 + S.length), (p.P.tmulVec (γ :: d) j + p.q.getD j 0) *
        ((γ' :: d').getD j 0 - (γ :: d).getD j 0) =
        (γ :: d).getD j 0 * p.A.tmulVec s.z j - (γ' :: d').getD j 0 * p.A.tmulVec s.z j := by
      intro j hj
      have := ho.stationary j (by rw [hp.nCols]; exact Finset.mem_range.1 hj)
      rw [hx] at this
      rw [eq_neg_of_add_eq_zero_left this]; ring
    have hrows : ∀ j, j < p.A.nCols → ∀ e ∈ p.A.col j, e.1 < p.A.nRows := by
      rw [hp.A]; exact fun j hj => ((gamma_wellFormed S hs cc).rows j hj).2
    rw [Finset.sum_congr rfl hst, Finset.sum_sub_distrib, ← hp.nCols, p.A.swap hrows, p.A.swap hrows] at hge
    have hsl : ∀ x : List ℝ, ∑ i ∈ Finset.range p.A.nRows, s.z.getD i 0 * p.slack x i =
        ∑ i ∈ Finset.range p.A.nRows, s.z.getD i 0 * p.b.getD i 0 -
          ∑ i ∈ Finset.range p.A.nRows, s.z.getD i 0 * p.A.mulVec x i := by
      intro x
      rw [← Finset.sum_sub_distrib]
      exact Finset.sum_congr rfl fun i _ => by unfold Program.slack; ring
    have hc := ho.compl
    rw [sum_range_list, hx, hsl] at hc
    have h' := hsl (γ' :: d')
    rw [hp.slack_sum s.z γ' d' hd' w hw hwl hws, hprob'.2] at h'
    have hα : 0 ≤ ∑ i ∈ Finset.range S.length, s.z.getD (1 + i) 0 * d'.getD i 0 := by
      apply Finset.sum_nonneg
      intro i hi
      have hi' := Finset.mem_range.1 hi
      exact mul_nonneg (hdual _ (by omega) (by omega)) (hprob'.1 _ (getD_mem d' i (by omega)))
    have hβ : 0 ≤ ∑ i ∈ Finset.range S.length, s.z.getD (1 + S.length + i) 0 * (ci - cc * d'.getD i 0) := by
      apply Finset.sum_nonneg
      intro i hi
      have hi' := Finset.mem_range.1 hi
      refine mul_nonneg (hdual _ (by omega) (by omega)) ?_
      have := hcap' _ (getD_mem d' i (by omega)); linarith
    rw [← hγ'] at h'
    linarith

end IsGamma

end Miniboosts
