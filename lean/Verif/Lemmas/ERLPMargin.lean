import Verif.Lemmas.ERLPStuck
import Verif.Props.ERLPBoost

/-! # The margin of a solution of the expanded program -/

namespace Miniboosts

open Real Finset LP

variable {H X : Type*} [Classifier H X ℝ]

/-- A minimiser of a linear function plus a separable quadratic satisfies the first-order condition. -/
theorem first_order {n : Nat} {nu γ : ℝ} {M b a : Nat → ℝ} (ha : ∀ i, i < n → 0 ≤ a i) {d : List ℝ} (hl : d.length = n)
    (hd : Spec.IsCapped nu d) (hγ : ∑ i ∈ range n, M i * d.getD i 0 ≤ γ)
    (hopt : ∀ d' : List ℝ, d'.length = n → Spec.IsCapped nu d' →
      γ + quadPen n b a d ≤ ∑ i ∈ range n, M i * d'.getD i 0 + quadPen n b a d')
    (d' : List ℝ) (hl' : d'.length = n) (hd' : Spec.IsCapped nu d') :
    γ ≤ ∑ i ∈ range n, M i * d'.getD i 0 + ∑ i ∈ range n, (b i + a i * d.getD i 0) * (d'.getD i 0 - d.getD i 0) := by
  have hγe : ∑ i ∈ range n, M i * d.getD i 0 = γ := le_antisymm hγ (by have := hopt d hl hd; linarith)
  set A := ∑ i ∈ range n, M i * d'.getD i 0 + ∑ i ∈ range n, (b i + a i * d.getD i 0) * (d'.getD i 0 - d.getD i 0) - γ with hA
  set Q := ∑ i ∈ range n, a i * (d'.getD i 0 - d.getD i 0) ^ 2 / 2 with hQ
  have hQ0 : 0 ≤ Q := Finset.sum_nonneg fun i hi => by
    have := ha i (mem_range.1 hi)
    positivity
  have key : ∀ t : ℝ, 0 ≤ t → t ≤ 1 → 0 ≤ t * A + t ^ 2 * Q := by
    intro t ht0 ht1
    set dt := List.zipWith (fun p q => p + t * (q - p)) d d' with hdt
    have hlt : dt.length = n := by rw [hdt, List.length_zipWith, hl, hl', min_self]
    have hget : ∀ i, i < n → dt.getD i 0 = d.getD i 0 + t * (d'.getD i 0 - d.getD i 0) := by
      intro i hi
      rw [hdt]
      simp [List.getD_eq_getElem?_getD, List.getElem?_zipWith, hl, hl', hi]
    have hcap : Spec.IsCapped nu dt := by
      constructor
      · intro p hp
        obtain ⟨i, hi, rfl⟩ := List.mem_iff_getElem.1 hp
        have h1 := hget i (by omega)
        rw [List.getD_eq_getElem?_getD, List.getElem?_eq_getElem hi, Option.getD_some] at h1
        rw [h1]
        have p1 := hd.1 _ (getD_mem d i (by omega))
        have p2 := hd'.1 _ (getD_mem d' i (by omega))
        constructor
        · nlinarith [p1.1, p2.1]
        · nlinarith [p1.2, p2.2]
      · rw [sum_getD, hlt, Finset.sum_congr rfl fun i hi => hget i (mem_range.1 hi), Finset.sum_add_distrib, ← Finset.mul_sum,
          Finset.sum_sub_distrib]
        have s1 := hd.2
        have s2 := hd'.2
        rw [sum_getD, hl] at s1
        rw [sum_getD, hl'] at s2
        rw [s1, s2]; ring
    have h := hopt dt hlt hcap
    have e : ∑ i ∈ range n, M i * dt.getD i 0 + quadPen n b a dt - (∑ i ∈ range n, M i * d.getD i 0 + quadPen n b a d) =
        t * (∑ i ∈ range n, M i * d'.getD i 0 - ∑ i ∈ range n, M i * d.getD i 0 +
          ∑ i ∈ range n, (b i + a i * d.getD i 0) * (d'.getD i 0 - d.getD i 0)) + t ^ 2 * Q := by
      unfold quadPen
      rw [hQ, Finset.mul_sum, ← Finset.sum_add_distrib, ← Finset.sum_add_distrib, ← Finset.sum_sub_distrib, ← Finset.sum_sub_distrib,
        ← Finset.sum_add_distrib, Finset.mul_sum, ← Finset.sum_add_distrib]
      apply Finset.sum_congr rfl
      intro i hi
      rw [hget i (mem_range.1 hi)]
      ring
    rw [hγe] at e
    have : t * A = t * (∑ i ∈ range n, M i * d'.getD i 0 - γ +
        ∑ i ∈ range n, (b i + a i * d.getD i 0) * (d'.getD i 0 - d.getD i 0)) := by rw [hA]; ring
    rw [this]
    linarith
  by_contra hneg
  push Not at hneg
  have hA0 : A < 0 := by rw [hA]; linarith
  have hden : 0 < Q + 1 - A := by linarith
  have h := key (-A / (Q + 1 - A)) (by apply div_nonneg <;> linarith) (by rw [div_le_one hden]; linarith)
  have e : -A / (Q + 1 - A) * A + (-A / (Q + 1 - A)) ^ 2 * Q = A ^ 2 * (A - 1) / (Q + 1 - A) ^ 2 := by
    field_simp; ring
  rw [e] at h
  have : A ^ 2 * (A - 1) / (Q + 1 - A) ^ 2 < 0 := by
    apply div_neg_of_neg_of_pos
    · have : 0 < A ^ 2 := by nlinarith
      nlinarith
    · positivity
  linarith

/-- The derivative of the expansion at `d`, when `d` is close to the centre `c`. -/
theorem expansion_slope {c d r : ℝ} (hc : 0 < c) (hr0 : 0 ≤ r) (hr1 : r < 1) (h : |d - c| ≤ r * c) :
    0 < d ∧ log d + 1 ≤ log c + d / c ∧ log c + d / c ≤ log d + 1 + r ^ 2 / (1 - r) := by
  obtain ⟨h1, h2⟩ := abs_le.1 h
  have hd : 0 < d := by nlinarith
  have hx : 0 < d / c := by positivity
  have e : log (d / c) = log d - log c := log_div hd.ne' hc.ne'
  have a1 := log_le_sub_one_of_pos hx
  have a2 := one_sub_inv_le_log_of_pos hx
  refine ⟨hd, by linarith, ?_⟩
  have b1 : 1 - r ≤ d / c := by rw [le_div_iff₀ hc]; linarith
  have b2 : d / c ≤ 1 + r := by rw [div_le_iff₀ hc]; linarith
  set x := d / c with hxd
  have b3 : x - 1 - (1 - x⁻¹) = (x - 1) ^ 2 / x := by field_simp; try ring
  have b4 : (x - 1) ^ 2 / x ≤ r ^ 2 / (1 - r) := by
    apply div_le_div₀ (sq_nonneg _) _ (by linarith) b1
    nlinarith
  linarith

/-- Gibbs. -/
theorem gibbs_term {p q : ℝ} (hp : 0 ≤ p) (hq : 0 < q) : p * log q ≤ p * log p + (q - p) := by
  rcases hp.eq_or_lt with rfl | hp
  · simp; exact hq.le
  · have h := log_le_sub_one_of_pos (x := q / p) (by positivity)
    rw [log_div hq.ne' hp.ne'] at h
    have h2 := mul_le_mul_of_nonneg_left h hp.le
    have e : p * (q / p - 1) = q - p := by field_simp
    rw [e] at h2
    linarith

omit [Classifier H X ℝ] in
theorem exists_best (hs : List H) (g : H → ℝ) (hne : hs ≠ []) : ∃ h₀ ∈ hs, ∀ h ∈ hs, g h ≤ g h₀ := by
  induction hs with
  | nil => exact absurd rfl hne
  | cons a hs ih =>
    by_cases h0 : hs = []
    · subst h0; exact ⟨a, by simp, by simp⟩
    · obtain ⟨b, hb, hmax⟩ := ih h0
      rcases le_total (g a) (g b) with h | h
      · refine ⟨b, by simp [hb], ?_⟩
        intro x hx
        rcases List.mem_cons.1 hx with rfl | hx
        · exact h
        · exact hmax x hx
      · refine ⟨a, by simp, ?_⟩
        intro x hx
        rcases List.mem_cons.1 hx with rfl | hx
        · exact le_rfl
        · exact le_trans (hmax x hx) h

/-- The vote of a solution whose distribution is close to the centre of the expansion has a large soft margin. -/
theorem solution_margin {S : Examples X ℝ} {hs : List H} {nu η r : ℝ} (hη : 0 < η) (hhs : hs ≠ []) {c d w : List ℝ} (hcl : c.length = S.length)
    (hc : ∀ q ∈ c, 0 < q) (hsol : Spec.ErlpSolution S hs nu η c d w) (hr0 : 0 ≤ r) (hr1 : r < 1)
    (hclose : ∀ i, i < S.length → |d.getD i 0 - c.getD i 0| ≤ r * c.getD i 0)
    (h : H) (hh : h ∈ hs) (d' : List ℝ) (hl' : d'.length = S.length) (hd' : Spec.IsCapped nu d') :
    Spec.edge S d (conf h) + ((d.map fun p => p * log p).sum - (d'.map fun p => p * log p).sum - r ^ 2 / (1 - r)) / η ≤
      Spec.edge S d' (fun x => Spec.vote conf (List.zip w hs) x) := by
  obtain ⟨hl, hcap, hwl, hwp, hsad⟩ := hsol
  set n := S.length with hn
  set M : Nat → ℝ := fun i => (S.map fun e => e.2 * Spec.vote conf (List.zip w hs) e.1).getD i 0 with hM
  have hE : ∀ e : List ℝ, e.length = n → Spec.edge S e (fun x => Spec.vote conf (List.zip w hs) x) = ∑ i ∈ range n, M i * e.getD i 0 :=
    fun e he => edge_fun_sum S e _ he
  have hpen : ∀ e : List ℝ, e.length = n → quadPen n (fun i => log (c.getD i 0) / η) (fun i => 1 / (c.getD i 0 * η)) e =
      Spec.entropyTaylor c e / η + (c.sum / 2) / η := fun e he => Props.quadPen_taylor c e n hcl he hc η hη
  have hcp : ∀ i, i < n → 0 < c.getD i 0 := fun i hi => hc _ (getD_mem c i (by omega))
  -- the best edge
  obtain ⟨h₀, hh₀, hbest⟩ : ∃ h₀ ∈ hs, ∀ h ∈ hs, Spec.edge S d (conf h) ≤ Spec.edge S d (conf h₀) := by
    exact exists_best hs (fun h => Spec.edge S d (conf h)) hhs
  have hγ : ∑ i ∈ range n, M i * d.getD i 0 ≤ Spec.edge S d (conf h₀) := by
    rw [← hE d hl]
    exact vote_edge_le S hs d w hwl hwp _ hbest
  have fo := first_order (M := M) (b := fun i => log (c.getD i 0) / η) (a := fun i => 1 / (c.getD i 0 * η)) (γ := Spec.edge S d (conf h₀))
    (fun i hi => by have := hcp i hi; positivity) hl hcap hγ (fun e he hec => by
      have := hsad h₀ hh₀ e he hec
      rw [hpen d hl, hpen e he, ← hE e he]
      linarith) d' hl' hd'
  rw [hE d' hl']
  have hsum : ∑ i ∈ range n, (log (c.getD i 0) / η + 1 / (c.getD i 0 * η) * d.getD i 0) * (d'.getD i 0 - d.getD i 0) ≤
      -(((d.map fun p => p * log p).sum - (d'.map fun p => p * log p).sum - r ^ 2 / (1 - r)) / η) := by
    have hterm : ∀ i ∈ range n, (log (c.getD i 0) / η + 1 / (c.getD i 0 * η) * d.getD i 0) * (d'.getD i 0 - d.getD i 0) ≤
        (d'.getD i 0 * log (d'.getD i 0) - d.getD i 0 * log (d.getD i 0) + r ^ 2 / (1 - r) * d'.getD i 0) / η := by
      intro i hi
      have hi := mem_range.1 hi
      have hci := hcp i hi
      obtain ⟨s1, s2, s3⟩ := expansion_slope hci hr0 hr1 (hclose i hi)
      have hdi' := (hd'.1 _ (getD_mem d' i (by omega))).1
      have g := gibbs_term hdi' s1
      have e : (log (c.getD i 0) / η + 1 / (c.getD i 0 * η) * d.getD i 0) * (d'.getD i 0 - d.getD i 0) =
          ((log (c.getD i 0) + d.getD i 0 / c.getD i 0) * d'.getD i 0 - (log (c.getD i 0) + d.getD i 0 / c.getD i 0) * d.getD i 0) / η := by
        field_simp
      rw [e]
      apply div_le_div_of_nonneg_right _ hη.le
      have k1 := mul_le_mul_of_nonneg_right s3 hdi'
      have k2 := mul_le_mul_of_nonneg_right s2 s1.le
      linarith
    refine le_trans (Finset.sum_le_sum hterm) ?_
    rw [← Finset.sum_div, ← neg_div]
    apply div_le_div_of_nonneg_right _ hη.le
    rw [Finset.sum_add_distrib, Finset.sum_sub_distrib, ← Finset.mul_sum]
    have m1 : ∀ e : List ℝ, e.length = n → (e.map fun p => p * log p).sum = ∑ i ∈ range n, e.getD i 0 * log (e.getD i 0) := by
      intro e he
      rw [sum_getD, List.length_map, he]
      apply Finset.sum_congr rfl
      intro i hi
      have := mem_range.1 hi
      simp [List.getD_eq_getElem?_getD, he, this]
    have m2 : ∑ i ∈ range n, d'.getD i 0 = 1 := by
      have := hd'.2
      rw [sum_getD, hl'] at this
      exact this
    rw [m1 d hl, m1 d' hl', m2]
    linarith
  have := hbest h hh
  linarith

end Miniboosts
