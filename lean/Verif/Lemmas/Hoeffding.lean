import Mathlib.Probability.Moments.SubGaussian

/-! # Hoeffding's lemma for finite lists of weighted values -/

namespace Miniboosts

open Real MeasureTheory ProbabilityTheory

/-- The discrete measure with the weights `p.1` at the points `p.2`. -/
noncomputable def atoms : List (ℝ × ℝ) → Measure ℝ
  | [] => 0
  | p :: l => ENNReal.ofReal p.1 • Measure.dirac p.2 + atoms l

theorem integrable_atoms (l : List (ℝ × ℝ)) (f : ℝ → ℝ) : Integrable f (atoms l) := by
  induction l with
  | nil => exact integrable_zero_measure
  | cons p l ih =>
    refine Integrable.add_measure ?_ ih
    exact (integrable_dirac (by simp)).smul_measure ENNReal.ofReal_ne_top

theorem integral_atoms (l : List (ℝ × ℝ)) (h : ∀ p ∈ l, 0 ≤ p.1) (f : ℝ → ℝ) :
    ∫ x, f x ∂(atoms l) = (l.map fun p => p.1 * f p.2).sum := by
  induction l with
  | nil => simp [atoms]
  | cons p l ih =>
    have h1 : Integrable f (ENNReal.ofReal p.1 • Measure.dirac p.2) :=
      (integrable_dirac (by simp)).smul_measure ENNReal.ofReal_ne_top
    rw [atoms, integral_add_measure h1 (integrable_atoms l f), ih (fun q hq => h q (by simp [hq])),
      integral_smul_measure, integral_dirac, ENNReal.toReal_ofReal (h p (by simp))]
    simp

theorem atoms_univ (l : List (ℝ × ℝ)) (h : ∀ p ∈ l, 0 ≤ p.1) :
    (atoms l) Set.univ = ENNReal.ofReal (l.map Prod.fst).sum := by
  induction l with
  | nil => simp [atoms]
  | cons p l ih =>
    have hs : 0 ≤ (l.map Prod.fst).sum := by
      apply List.sum_nonneg
      intro x hx
      obtain ⟨q, hq, rfl⟩ := List.mem_map.1 hx
      exact h q (by simp [hq])
    rw [atoms, Measure.add_apply, ih (fun q hq => h q (by simp [hq])), List.map_cons, List.sum_cons,
      ENNReal.ofReal_add (h p (by simp)) hs]
    simp

theorem atoms_compl (l : List (ℝ × ℝ)) (s : Set ℝ) (h : ∀ p ∈ l, p.2 ∈ s) (hs : MeasurableSet s) :
    (atoms l) sᶜ = 0 := by
  induction l with
  | nil => simp [atoms]
  | cons p l ih =>
    rw [atoms, Measure.add_apply, ih (fun q hq => h q (by simp [hq]))]
    simp [Measure.dirac_apply' _ hs.compl, h p (by simp)]

/-- Hoeffding's lemma: a probability average of exponentials of values in `[-c, c]`. -/
theorem hoeffding_list (l : List (ℝ × ℝ)) (h : ∀ p ∈ l, 0 ≤ p.1) (hsum : (l.map Prod.fst).sum = 1)
    (c t : ℝ) (hc : ∀ p ∈ l, |p.2| ≤ c) :
    (l.map fun p => p.1 * exp (t * p.2)).sum ≤
      exp (t * (l.map fun p => p.1 * p.2).sum + c ^ 2 * t ^ 2 / 2) := by
  have hprob : IsProbabilityMeasure (atoms l) := ⟨by rw [atoms_univ l h, hsum]; simp⟩
  have hc0 : 0 ≤ c := by
    rcases l with _ | ⟨p, l⟩
    · simp at hsum
    · exact (abs_nonneg _).trans (hc p (by simp))
  have hb : ∀ᵐ ω ∂(atoms l), (fun x : ℝ => x) ω ∈ Set.Icc (-c) c := by
    rw [ae_iff]
    exact atoms_compl l (Set.Icc (-c) c) (fun p hp => abs_le.1 (hc p hp)) measurableSet_Icc
  have hm := (hasSubgaussianMGF_of_mem_Icc (X := fun x : ℝ => x) (μ := atoms l) aemeasurable_id hb).mgf_le t
  have hmean : ∫ x, x ∂(atoms l) = (l.map fun p => p.1 * p.2).sum := integral_atoms l h fun x => x
  unfold mgf at hm
  rw [hmean, integral_atoms l h] at hm
  have hnorm : (((‖c - -c‖₊ / 2) ^ 2 : NNReal) : ℝ) = c ^ 2 := by
    push_cast
    rw [Real.norm_eq_abs, abs_of_nonneg (by linarith)]
    ring
  rw [hnorm] at hm
  set m := (l.map fun p => p.1 * p.2).sum
  have : (l.map fun p => p.1 * exp (t * p.2)).sum =
      exp (t * m) * (l.map fun p => p.1 * exp (t * (p.2 - m))).sum := by
    rw [← List.sum_map_mul_left]
    congr 1
    apply List.map_congr_left
    intro p _
    rw [mul_left_comm, ← exp_add]
    congr 2; ring
  rw [this, exp_add]
  exact mul_le_mul_of_nonneg_left hm (exp_pos _).le

end Miniboosts
